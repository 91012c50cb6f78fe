import Verif.Lemmas.CoinSelect

/-! # Branch and bound: the machine walks the tree depth first -/

namespace Verif.CoinSelect
open Bnb

variable {S : Type} [LinearOrder S]

/-- the machine state at a node of the tree -/
def node (pool : List (Nat × WV)) (s0 : Selector) (pos : Nat) (X : Finset Nat) (best : S) : Bnb S :=
  { pool, poolPos := pos, best, selection := { s0 with selected := X },
    remAbs := ((pool.drop pos).map (·.2.value)).sum,
    remEff := ((pool.drop pos).map (·.2.eff s0.opts.targetFeerate)).sum }

/-- where backtracking from position `k` with selection `X` leads -/
def back (pool : List (Nat × WV)) (X : Finset Nat) : Nat → Option (Nat × Finset Nat)
  | 0 => none
  | k + 1 =>
    match pool[k]? with
    | none => none
    | some e => if e.1 ∈ X then some (k, X.erase e.1) else back pool X k

/-- the pool: distinct indexes of candidates -/
structure PoolOK (s0 : Selector) (pool : List (Nat × WV)) : Prop where
  nodup : (pool.map (·.1)).Nodup
  range : ∀ e ∈ pool, e.1 < s0.candidates.length

/-- a selection that has decided nothing about the positions from `pos` on -/
def Fresh (pool : List (Nat × WV)) (pos : Nat) (X : Finset Nat) : Prop := ∀ e ∈ pool.drop pos, e.1 ∉ X

theorem back_succ {pool : List (Nat × WV)} {X : Finset Nat} {k : Nat} (h : k < pool.length) :
    back pool X (k + 1) = if pool[k].1 ∈ X then some (k, X.erase pool[k].1) else back pool X k := by
  simp only [back, List.getElem?_eq_getElem h]

theorem backtrackFrom_eq (pool : List (Nat × WV)) (s0 : Selector) (pos : Nat) (X : Finset Nat) (best : S) :
    ∀ k, k ≤ pool.length →
    ∃ b', backtrackFrom { node pool s0 k X best with poolPos := pos } k =
      match back pool X k with
      | none => some (false, b')
      | some (p, X') => some (true, { node pool s0 (p + 1) X' best with poolPos := p }) := by
  intro k
  induction k with
  | zero => intro _; exact ⟨_, rfl⟩
  | succ k ih =>
    intro hk
    have hlt : k < pool.length := hk
    have hget : pool[k]? = some pool[k] := List.getElem?_eq_getElem hlt
    have hdrop : pool.drop k = pool[k] :: pool.drop (k + 1) := List.drop_eq_getElem_cons hlt
    by_cases hm : (pool[k]).1 ∈ X
    · refine ⟨node pool s0 0 X best, ?_⟩
      simp only [backtrackFrom, back, node, hget, Selector.isSelected, hm, decide_true, if_true, Selector.deselect]
    · obtain ⟨b', hb⟩ := ih (by omega)
      refine ⟨b', ?_⟩
      rw [show back pool X (k + 1) = back pool X k by simp only [back, hget, hm, if_false]]
      rw [← hb]
      simp only [backtrackFrom, node, hget, Selector.isSelected, hm, decide_false, Bool.false_eq_true, if_false]
      congr 2
      · rw [hdrop, List.map_cons, List.sum_cons, Nat.add_comm]
      · rw [hdrop, List.map_cons, List.sum_cons, Int.add_comm]

/-- one backtracking move of the machine -/
theorem move_skipBoth (pool : List (Nat × WV)) (s0 : Selector) (pos : Nat) (X : Finset Nat) (best : S)
    (hk : pos ≤ pool.length) :
    ∃ b', BnbIter.move (node pool s0 pos X best) .skipBoth =
      match back pool X pos with
      | none => some (true, b')
      | some (p, X') => some (false, node pool s0 (p + 1) X' best) := by
  obtain ⟨b', hb⟩ := backtrackFrom_eq pool s0 pos X best pos hk
  have hn : ({ node pool s0 pos X best with poolPos := pos } : Bnb S) = node pool s0 pos X best := rfl
  rw [hn] at hb
  have h1 : BnbIter.move (node pool s0 pos X best) .skipBoth =
    ((node pool s0 pos X best).backtrackFrom pos).map
      fun r => (!r.1, { r.2 with poolPos := r.2.poolPos + 1 }) := rfl
  rw [h1, hb]
  cases back pool X pos with
  | none => exact ⟨_, rfl⟩
  | some q => exact ⟨b', rfl⟩

theorem forward_true {pool : List (Nat × WV)} {s0 : Selector} {pos : Nat} {X : Finset Nat} {best : S}
    (h : pos < pool.length) :
    BnbIter.move (node pool s0 pos X best) .skipInclusion = some (false, node pool s0 (pos + 1) X best) := by
  have hget : pool[pos]? = some pool[pos] := List.getElem?_eq_getElem h
  have hdrop : pool.drop pos = pool[pos] :: pool.drop (pos + 1) := List.drop_eq_getElem_cons h
  have hsub : subU ((pool.drop pos).map (·.2.value)).sum pool[pos].2.value =
      some ((pool.drop (pos + 1)).map (·.2.value)).sum := by
    rw [hdrop, List.map_cons, List.sum_cons, subU, if_pos (Nat.le_add_right _ _), Nat.add_sub_cancel_left]
  simp only [BnbIter.move, forward, node, hget, hsub, Option.bind_some, Option.map_some, if_true]
  congr 3
  rw [hdrop, List.map_cons, List.sum_cons]; omega

theorem forward_false {pool : List (Nat × WV)} {s0 : Selector} {pos : Nat} {X : Finset Nat} {best : S}
    (h : pos < pool.length) (hr : pool[pos].1 < s0.candidates.length) :
    BnbIter.move (node pool s0 pos X best) .continue =
      some (false, node pool s0 (pos + 1) (insert pool[pos].1 X) best) := by
  have hget : pool[pos]? = some pool[pos] := List.getElem?_eq_getElem h
  have hdrop : pool.drop pos = pool[pos] :: pool.drop (pos + 1) := List.drop_eq_getElem_cons h
  have hsub : subU ((pool.drop pos).map (·.2.value)).sum pool[pos].2.value =
      some ((pool.drop (pos + 1)).map (·.2.value)).sum := by
    rw [hdrop, List.map_cons, List.sum_cons, subU, if_pos (Nat.le_add_right _ _), Nat.add_sub_cancel_left]
  simp only [BnbIter.move, forward, node, hget, hsub, Option.bind_some, Option.map_some, if_false,
    Bool.false_eq_true, Selector.select, hr, if_true]
  congr 3
  rw [hdrop, List.map_cons, List.sum_cons]; omega

/-- accumulate the last item found -/
def lastOr {α : Type} (l : List (Option α)) (acc : Option α) : Option α :=
  l.foldl (fun b c => if c.isSome then c else b) acc

theorem lastOr_append {α : Type} (l l' : List (Option α)) (acc : Option α) :
    lastOr (l ++ l') acc = lastOr l' (lastOr l acc) := by
  simp [lastOr, List.foldl_append]

theorem lastOr_cons {α : Type} (x : Option α) (l : List (Option α)) (acc : Option α) :
    lastOr (x :: l) acc = lastOr l (if x.isSome then x else acc) := rfl

theorem lastSome_eq {α : Type} (l : List (Option α)) : lastSome l = lastOr l none := by
  cases l with
  | nil => rfl
  | cons x xs =>
    rw [lastOr_cons]
    cases x <;> rfl

/-- The tree walk as a recursive function: the items in order and the final best score. -/
def visit (strategy : Decide S) (pool : List (Nat × WV)) (s0 : Selector) :
    Nat → Finset Nat → S → List (Option Selector) × S
  | 0, X, best =>
    match strategy (node pool s0 pool.length X best) with
    | none => ([], best)
    | some d =>
      let a := BnbIter.advertise (node pool s0 pool.length X best) d.2
      ([a.2], a.1.best)
  | k + 1, X, best =>
    let pos := pool.length - (k + 1)
    match strategy (node pool s0 pos X best) with
    | none => ([], best)
    | some d =>
      let a := BnbIter.advertise (node pool s0 pos X best) d.2
      match d.1 with
      | .skipBoth => ([a.2], a.1.best)
      | .skipInclusion =>
        let r := visit strategy pool s0 k X a.1.best
        (a.2 :: r.1, r.2)
      | .continue =>
        let r1 := visit strategy pool s0 k (insert (pool.getD pos default).1 X) a.1.best
        let r2 := visit strategy pool s0 k X r1.2
        (a.2 :: (r1.1 ++ r2.1), r2.2)

/-- a strategy that does not panic and does not continue past the end, at the nodes of the tree -/
def Safe (strategy : Decide S) (pool : List (Nat × WV)) (s0 : Selector) : Prop :=
  ∀ pos X best, pos ≤ pool.length → Fresh pool pos X →
    ∃ d, strategy (node pool s0 pos X best) = some d ∧ (pos = pool.length → d.1 = .skipBoth)

theorem advertise_node (pool : List (Nat × WV)) (s0 : Selector) (pos : Nat) (X : Finset Nat) (best : S)
    (sc : Option S) :
    (BnbIter.advertise (node pool s0 pos X best) sc).1 =
      node pool s0 pos X (BnbIter.advertise (node pool s0 pos X best) sc).1.best := by
  cases sc with
  | none => rfl
  | some c =>
    simp only [BnbIter.advertise, Bnb.advertise]
    by_cases h : c ≤ (node pool s0 pos X best).best
    · simp only [h, if_true]; rfl
    · simp only [h, if_false]; rfl

theorem next_eq {strategy : Decide S} {pool : List (Nat × WV)} {s0 : Selector} {pos : Nat} {X : Finset Nat} {best : S}
    {d : Branch × Option S} (hd : strategy (node pool s0 pos X best) = some d)
    (hc : d.1 = .skipBoth ∨ pos < pool.length) :
    BnbIter.next strategy ⟨node pool s0 pos X best, false⟩ =
      (BnbIter.move (node pool s0 pos X (BnbIter.advertise (node pool s0 pos X best) d.2).1.best) d.1).map fun r =>
        (if (BnbIter.advertise (node pool s0 pos X best) d.2).2.isSome || !r.1
          then some (BnbIter.advertise (node pool s0 pos X best) d.2).2 else none, ⟨r.2, r.1⟩) := by
  have hadv := advertise_node pool s0 pos X best d.2
  simp only [BnbIter.next, Bool.false_eq_true, if_false, hd, Option.bind_some]
  generalize BnbIter.advertise (node pool s0 pos X best) d.2 = a at *
  rw [← hadv, if_neg]
  rw [hadv]
  show ¬ (d.1.willContinue && !decide (pos < pool.length)) = true
  rcases hc with hc | hc
  · rw [hc]; simp [Branch.willContinue]
  · simp [hc]

/-- what is left to do after the subtree of a node: continue at the place backtracking leads to -/
def cont (strategy : Decide S) (pool : List (Nat × WV)) (s0 : Selector) (pos : Nat) (X : Finset Nat) (best : S)
    (n : Nat) : Option (List (Option Selector)) :=
  match back pool X pos with
  | none => some []
  | some (p, X') => BnbIter.take strategy n ⟨node pool s0 (p + 1) X' best, false⟩

theorem fresh_succ {pool : List (Nat × WV)} {pos : Nat} {X : Finset Nat} (h : Fresh pool pos X) :
    Fresh pool (pos + 1) X := by
  intro e he
  exact h e (List.drop_subset_drop_left _ (Nat.le_succ _) he)

theorem fresh_insert {pool : List (Nat × WV)} {pos : Nat} {X : Finset Nat} (hnd : (pool.map (·.1)).Nodup)
    (hlt : pos < pool.length) (h : Fresh pool pos X) : Fresh pool (pos + 1) (insert pool[pos].1 X) := by
  intro e he hm
  rcases Finset.mem_insert.1 hm with h1 | h1
  · have hsub : (pool.drop pos).map (·.1) |>.Nodup := by
      rw [List.map_drop]; exact hnd.sublist (List.drop_sublist _ _)
    rw [List.drop_eq_getElem_cons hlt, List.map_cons, List.nodup_cons] at hsub
    apply hsub.1
    rw [← h1]
    exact List.mem_map_of_mem he
  · exact fresh_succ h e he h1

theorem take_next {strategy : Decide S} {n : Nat} {it it' : BnbIter S} {x : Option Selector}
    (h : BnbIter.next strategy it = some (some x, it')) :
    BnbIter.take strategy (n + 1) it = (BnbIter.take strategy n it').map fun xs => x :: xs := by
  simp only [BnbIter.take, h, Option.bind_some]

theorem take_done (strategy : Decide S) (n : Nat) (b : Bnb S) : BnbIter.take strategy n ⟨b, true⟩ = some [] := by
  cases n <;> rfl

/-- The machine started at a node first walks the subtree of the node, then continues where backtracking leads. -/
theorem take_visit {strategy : Decide S} {pool : List (Nat × WV)} {s0 : Selector} (hp : PoolOK s0 pool)
    (hs : Safe strategy pool s0) : ∀ (k : Nat) (X : Finset Nat) (best : S) (n : Nat) (l' : List (Option Selector)),
    k ≤ pool.length → Fresh pool (pool.length - k) X →
    cont strategy pool s0 (pool.length - k) X (visit strategy pool s0 k X best).2
      (n - (visit strategy pool s0 k X best).1.length) = some l' →
    ∃ l, BnbIter.take strategy n ⟨node pool s0 (pool.length - k) X best, false⟩ = some l ∧
      l.length ≤ ((visit strategy pool s0 k X best).1.take n).length + l'.length ∧
      ∀ acc, lastOr l acc = lastOr ((visit strategy pool s0 k X best).1.take n ++ l') acc := by
  -- a node at which both branches are skipped
  have hskip : ∀ (pos : Nat) (X : Finset Nat) (best : S) (n : Nat) (l' : List (Option Selector))
      (d : Branch × Option S), pos ≤ pool.length → strategy (node pool s0 pos X best) = some d → d.1 = .skipBoth →
      cont strategy pool s0 pos X (BnbIter.advertise (node pool s0 pos X best) d.2).1.best (n - 1) = some l' →
      ∃ l, BnbIter.take strategy n ⟨node pool s0 pos X best, false⟩ = some l ∧
        l.length ≤ ([(BnbIter.advertise (node pool s0 pos X best) d.2).2].take n).length + l'.length ∧
        ∀ acc, lastOr l acc = lastOr ([(BnbIter.advertise (node pool s0 pos X best) d.2).2].take n ++ l') acc := by
    intro pos X best n l' d hpos hd hb hc
    cases n with
    | zero =>
      refine ⟨[], rfl, by simp, ?_⟩
      have : l' = [] := by
        unfold cont at hc
        split at hc
        · exact (Option.some.inj hc).symm
        · simp only [Nat.zero_sub, BnbIter.take] at hc; exact (Option.some.inj hc).symm
      subst this; intro acc; rfl
    | succ n =>
      have hn := next_eq hd (Or.inl hb)
      rw [hb] at hn
      obtain ⟨b', hm⟩ := move_skipBoth pool s0 pos X (BnbIter.advertise (node pool s0 pos X best) d.2).1.best hpos
      rw [hm] at hn
      unfold cont at hc
      cases hbk : back pool X pos with
      | none =>
        rw [hbk] at hn hc
        have hl' : l' = [] := (Option.some.inj hc).symm
        subst hl'
        simp only [Option.map_some, Bool.not_true, Bool.or_false] at hn
        cases hx : (BnbIter.advertise (node pool s0 pos X best) d.2).2 with
        | none =>
          rw [hx] at hn
          simp only [Option.isSome_none, Bool.false_eq_true, if_false] at hn
          refine ⟨[], ?_, by simp, ?_⟩
          · simp only [BnbIter.take, hn, Option.bind_some]
          · intro acc; simp [lastOr]
        | some y =>
          rw [hx] at hn
          simp only [Option.isSome_some, if_true] at hn
          refine ⟨[some y], ?_, by simp, ?_⟩
          · rw [take_next hn, take_done]; rfl
          · intro acc; simp [lastOr]
      | some q =>
        obtain ⟨p, X'⟩ := q
        rw [hbk] at hn hc
        simp only [Option.map_some, Bool.not_false, Bool.or_true, if_true] at hn
        simp only [Nat.add_sub_cancel] at hc
        refine ⟨(BnbIter.advertise (node pool s0 pos X best) d.2).2 :: l', ?_, ?_, ?_⟩
        · rw [take_next hn, hc]; rfl
        · simp; omega
        · intro acc; simp
  intro k
  induction k with
  | zero =>
    intro X best n l' hk hf hc
    obtain ⟨d, hd, hlast⟩ := hs pool.length X best (le_refl _) hf
    have hv : visit strategy pool s0 0 X best = ([(BnbIter.advertise (node pool s0 pool.length X best) d.2).2],
        (BnbIter.advertise (node pool s0 pool.length X best) d.2).1.best) := by
      simp only [visit, hd]
    rw [hv] at hc ⊢
    exact hskip _ X best n l' d (le_refl _) hd (hlast rfl) hc
  | succ k ih =>
    intro X best n l' hk hf hc
    have hlt : pool.length - (k + 1) < pool.length := by omega
    have hsucc : pool.length - (k + 1) + 1 = pool.length - k := by omega
    obtain ⟨d, hd, hlast⟩ := hs (pool.length - (k + 1)) X best (by omega) hf
    have hget : pool[pool.length - (k + 1)]? = some pool[pool.length - (k + 1)] := List.getElem?_eq_getElem hlt
    have hnotin : pool[pool.length - (k + 1)].1 ∉ X := by
      apply hf; rw [List.drop_eq_getElem_cons hlt]; exact List.mem_cons_self
    have hback : back pool X (pool.length - k) = back pool X (pool.length - (k + 1)) := by
      rw [← hsucc]; simp only [back, hget, hnotin, if_false]
    set pos := pool.length - (k + 1) with hposdef
    set a := BnbIter.advertise (node pool s0 pos X best) d.2 with ha
    obtain ⟨br, sc⟩ := d
    cases br with
    | skipBoth =>
      have hv : visit strategy pool s0 (k + 1) X best = ([a.2], a.1.best) := by
        simp only [visit, ← hposdef, hd, ha]
      rw [hv] at hc ⊢
      exact hskip pos X best n l' _ (by omega) hd rfl hc
    | skipInclusion =>
      have hv : visit strategy pool s0 (k + 1) X best = (a.2 :: (visit strategy pool s0 k X a.1.best).1,
          (visit strategy pool s0 k X a.1.best).2) := by
        simp only [visit, ← hposdef, hd, ha]
      rw [hv] at hc ⊢
      cases n with
      | zero =>
        refine ⟨[], rfl, by simp, ?_⟩
        have : l' = [] := by
          unfold cont at hc
          split at hc
          · exact (Option.some.inj hc).symm
          · simp only [Nat.zero_sub, BnbIter.take] at hc; exact (Option.some.inj hc).symm
        subst this; intro acc; rfl
      | succ n =>
        have hn := next_eq hd (Or.inr hlt)
        rw [forward_true hlt] at hn
        simp only [Option.map_some, Bool.not_false, Bool.or_true, if_true, ← ha] at hn
        have hc' : cont strategy pool s0 (pool.length - k) X (visit strategy pool s0 k X a.1.best).2
            (n - (visit strategy pool s0 k X a.1.best).1.length) = some l' := by
          rw [← hc]
          unfold cont
          rw [hback]
          simp only [List.length_cons, Nat.add_sub_add_right]
        obtain ⟨l, h1, h2, h3⟩ := ih X a.1.best n l' (by omega) (by rw [← hsucc]; exact fresh_succ hf) hc'
        refine ⟨a.2 :: l, ?_, ?_, ?_⟩
        · rw [take_next hn, hsucc, h1]; rfl
        · simp only [List.take_succ_cons, List.length_cons]; omega
        · intro acc
          simp only [List.take_succ_cons, List.cons_append, lastOr_cons]
          exact h3 _
    | «continue» =>
      have hgD : (pool.getD pos default).1 = pool[pos].1 := by
        rw [List.getD_eq_getElem?_getD, hget]; rfl
      set X1 := insert pool[pos].1 X with hX1
      set r1 := visit strategy pool s0 k X1 a.1.best with hr1
      set r2 := visit strategy pool s0 k X r1.2 with hr2
      have hv : visit strategy pool s0 (k + 1) X best = (a.2 :: (r1.1 ++ r2.1), r2.2) := by
        simp only [visit, ← hposdef, hd, hgD, ha, hr1, hr2, hX1]
      rw [hv] at hc ⊢
      cases n with
      | zero =>
        refine ⟨[], rfl, by simp, ?_⟩
        have : l' = [] := by
          unfold cont at hc
          split at hc
          · exact (Option.some.inj hc).symm
          · simp only [Nat.zero_sub, BnbIter.take] at hc; exact (Option.some.inj hc).symm
        subst this; intro acc; rfl
      | succ n =>
        have hn := next_eq hd (Or.inr hlt)
        rw [forward_false hlt (hp.range _ (List.getElem_mem hlt))] at hn
        simp only [Option.map_some, Bool.not_false, Bool.or_true, if_true, ← ha] at hn
        -- second subtree
        have hc2 : cont strategy pool s0 (pool.length - k) X r2.2 (n - r1.1.length - r2.1.length) = some l' := by
          rw [← hc]
          unfold cont
          rw [hback]
          simp only [List.length_cons, List.length_append, Nat.add_sub_add_right, Nat.sub_sub]
        obtain ⟨l2, h1, h2, h3⟩ := ih X r1.2 (n - r1.1.length) l' (by omega)
          (by rw [← hsucc]; exact fresh_succ hf) hc2
        -- first subtree
        have hback1 : back pool X1 (pool.length - k) = some (pos, X) := by
          rw [← hsucc]
          rw [back_succ hlt, if_pos (by rw [hX1]; exact Finset.mem_insert_self _ _), hX1, Finset.erase_insert hnotin]
        have hc1 : cont strategy pool s0 (pool.length - k) X1 r1.2 (n - r1.1.length) = some l2 := by
          unfold cont
          rw [hback1]
          simp only [hsucc]
          exact h1
        obtain ⟨l1, g1, g2, g3⟩ := ih X1 a.1.best n l2 (by omega)
          (by rw [← hsucc]; exact fresh_insert hp.nodup hlt hf) hc1
        refine ⟨a.2 :: l1, ?_, ?_, ?_⟩
        · rw [take_next hn, hsucc, g1]; rfl
        · rw [← hr1] at g2
          rw [← hr2] at h2
          simp only [List.take_succ_cons, List.length_cons, List.take_append, List.length_append] at *
          omega
        · intro acc
          simp only [List.take_succ_cons, List.cons_append, lastOr_cons, List.take_append, List.append_assoc]
          rw [g3, ← hr1, lastOr_append, lastOr_append, h3]

/-- the number of items of the walk -/
theorem visit_length {strategy : Decide S} {pool : List (Nat × WV)} {s0 : Selector} :
    ∀ (k : Nat) (X : Finset Nat) (best : S), (visit strategy pool s0 k X best).1.length + 1 ≤ 2 ^ (k + 1) := by
  intro k
  induction k with
  | zero =>
    intro X best
    simp only [visit]
    split <;> simp
  | succ k ih =>
    intro X best
    simp only [visit]
    have hp : 2 ^ (k + 1 + 1) = 2 ^ (k + 1) + 2 ^ (k + 1) := by rw [Nat.pow_succ]; omega
    have h1 : 1 ≤ 2 ^ (k + 1) := Nat.one_le_two_pow
    split
    · simp only [List.length_nil]; omega
    · split
      · simp only [List.length_cons, List.length_nil]; omega
      · simp only [List.length_cons]
        have := ih X (BnbIter.advertise (node pool s0 (pool.length - (k + 1)) X best) ‹Branch × Option S›.2).1.best
        omega
      · simp only [List.length_cons, List.length_append]
        rename_i d _ _ _
        have h2 := ih (insert (pool.getD (pool.length - (k + 1)) default).1 X)
          (BnbIter.advertise (node pool s0 (pool.length - (k + 1)) X best) d.2).1.best
        have h3 := ih X (visit strategy pool s0 k (insert (pool.getD (pool.length - (k + 1)) default).1 X)
          (BnbIter.advertise (node pool s0 (pool.length - (k + 1)) X best) d.2).1.best).2
        omega

/-- the whole run -/
theorem take_root {strategy : Decide S} {pool : List (Nat × WV)} {s0 : Selector} (hp : PoolOK s0 pool)
    (hs : Safe strategy pool s0) (hf : Fresh pool 0 s0.selected) (best : S) (n : Nat) :
    ∃ l, BnbIter.take strategy n ⟨Bnb.new s0 pool best, false⟩ = some l ∧ l.length + 1 ≤ 2 ^ (pool.length + 1) ∧
      lastSome l = lastOr ((visit strategy pool s0 pool.length s0.selected best).1.take n) none := by
  have hroot : Bnb.new s0 pool best = node pool s0 0 s0.selected best := by
    simp [Bnb.new, node]
  obtain ⟨l, h1, h2, h3⟩ := take_visit hp hs pool.length s0.selected best n [] (le_refl _)
    (by rw [Nat.sub_self]; exact hf) (by rw [Nat.sub_self]; rfl)
  rw [Nat.sub_self] at h1
  refine ⟨l, by rw [hroot]; exact h1, ?_, ?_⟩
  · have := visit_length (strategy := strategy) (pool := pool) (s0 := s0) pool.length s0.selected best
    have h4 := List.length_take_le n (visit strategy pool s0 pool.length s0.selected best).1
    have h5 := List.length_take_le' n (visit strategy pool s0 pool.length s0.selected best).1
    simp only [List.length_nil] at h2
    omega
  · rw [lastSome_eq, h3, List.append_nil]

end Verif.CoinSelect
