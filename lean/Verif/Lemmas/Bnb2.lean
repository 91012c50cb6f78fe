import Verif.Lemmas.Bnb
import Mathlib.Algebra.Group.Prod
import Mathlib.Algebra.Order.Monoid.Prod
import Mathlib.Algebra.Order.Floor.Ring

/-! # Branch and bound: what the strategy of `coin_select_bnb` finds -/

namespace Verif.CoinSelect
open Bnb

/-- absolute value, effective value and weight -/
abbrev Meas := Nat × Int × Nat

def mc (s0 : Selector) (e : Nat × WV) : Meas := (e.2.value, e.2.eff s0.opts.targetFeerate, e.2.weight)
def mL (s0 : Selector) (R : List (Nat × WV)) : Meas := (R.map (mc s0)).sum
def mX (s0 : Selector) (X : Finset Nat) : Meas :=
  (∑ i ∈ X, (s0.candidate i).value, ∑ i ∈ X, (s0.candidate i).eff s0.opts.targetFeerate,
   ∑ i ∈ X, (s0.candidate i).weight)

def Feas (s0 : Selector) (m : Meas) : Prop := targetAbs s0.opts ≤ m.1 ∧ s0.effectiveTarget ≤ m.2.1
def Over (s0 : Selector) (m : Meas) : Prop := upperAbs s0.opts < m.1 ∧ upperEff s0 < m.2.1
def Good (s0 : Selector) (m : Meas) : Prop := Feas s0 m ∧ ¬ Over s0 m
def wasteM (s0 : Selector) (m : Meas) : Int := truncI (mulF m.2.2 (f32 (s0.opts.targetFeerate - s0.opts.longTerm)))
def scoreM (s0 : Selector) (m : Meas) : Int := wasteM s0 m + (m.2.1 - s0.effectiveTarget)

instance (s0 m) : Decidable (Feas s0 m) := inferInstanceAs (Decidable (_ ∧ _))
instance (s0 m) : Decidable (Over s0 m) := inferInstanceAs (Decidable (_ ∧ _))

/-- the pool: distinct candidates, not selected at the start, each with a positive effective value -/
structure PoolGood (s0 : Selector) (pool : List (Nat × WV)) : Prop extends PoolOK s0 pool where
  cand : ∀ e ∈ pool, e.2 = s0.candidate e.1
  pos : ∀ e ∈ pool, 0 < e.2.eff s0.opts.targetFeerate

theorem mL_cons (s0 : Selector) (c : Nat × WV) (R : List (Nat × WV)) : mL s0 (c :: R) = mc s0 c + mL s0 R := by
  simp [mL]

theorem mL_nil (s0 : Selector) : mL s0 [] = 0 := rfl

theorem mL_fst (s0 : Selector) (R : List (Nat × WV)) : (mL s0 R).1 = (R.map (·.2.value)).sum := by
  induction R with
  | nil => rfl
  | cons c R ih => rw [mL_cons, Prod.fst_add, ih]; rfl

theorem mL_snd (s0 : Selector) (R : List (Nat × WV)) :
    (mL s0 R).2.1 = (R.map (·.2.eff s0.opts.targetFeerate)).sum := by
  induction R with
  | nil => rfl
  | cons c R ih => rw [mL_cons, Prod.snd_add, Prod.fst_add, ih]; rfl

theorem mX_insert {s0 : Selector} {X : Finset Nat} {e : Nat × WV} (hc : e.2 = s0.candidate e.1) (hn : e.1 ∉ X) :
    mX s0 (insert e.1 X) = mX s0 X + mc s0 e := by
  simp only [mX, mc, hc, Prod.mk_add_mk, Finset.sum_insert hn, Nat.add_comm, Int.add_comm]

/-- the measures of a list of pool entries are at least those of a sublist -/
theorem mL_sublist {s0 : Selector} {R R' : List (Nat × WV)} (h : R.Sublist R')
    (hp : ∀ e ∈ R', 0 < e.2.eff s0.opts.targetFeerate) :
    (mL s0 R).1 ≤ (mL s0 R').1 ∧ (mL s0 R).2.1 ≤ (mL s0 R').2.1 ∧ (mL s0 R).2.2 ≤ (mL s0 R').2.2 := by
  induction h with
  | slnil => exact ⟨le_refl _, le_refl _, le_refl _⟩
  | cons a h ih =>
    obtain ⟨h1, h2, h3⟩ := ih (fun e he => hp e (List.mem_cons_of_mem _ he))
    have := hp a List.mem_cons_self
    rw [mL_cons]
    simp only [Prod.fst_add, Prod.snd_add, mc]
    exact ⟨by omega, by omega, by omega⟩
  | cons_cons a h ih =>
    obtain ⟨h1, h2, h3⟩ := ih (fun e he => hp e (List.mem_cons_of_mem _ he))
    rw [mL_cons, mL_cons]
    simp only [Prod.fst_add, Prod.snd_add, mc]
    exact ⟨by omega, by omega, by omega⟩

theorem truncI_mono {x y : ℚ} (h : x ≤ y) : truncI x ≤ truncI y := by
  unfold truncI
  by_cases hx : 0 ≤ x
  · rw [if_pos hx, if_pos (le_trans hx h)]; exact Int.floor_mono h
  · rw [if_neg hx]
    by_cases hy : 0 ≤ y
    · rw [if_pos hy]
      have h1 : ⌈x⌉ ≤ 0 := Int.ceil_le.2 (by push_cast; exact le_of_lt (not_le.1 hx))
      have h2 : 0 ≤ ⌊y⌋ := Int.floor_nonneg.2 hy
      omega
    · rw [if_neg hy]; exact Int.ceil_mono h

/-- the branch taken, as a function of the measures -/
theorem strategy_node (s0 : Selector) (pool : List (Nat × WV)) (p : Nat) (X : Finset Nat) (best : WithTop Int) :
    bnbStrategy s0 (node pool s0 p X best) =
      if (mX s0 X + mL s0 (pool.drop p)).1 < targetAbs s0.opts ∨
          (mX s0 X + mL s0 (pool.drop p)).2.1 < s0.effectiveTarget then some (.skipBoth, none)
      else if Over s0 (mX s0 X) then some (.skipBoth, none)
      else if s0.opts.longTerm < s0.opts.targetFeerate ∧ best < ((wasteM s0 (mX s0 X) : Int) : WithTop Int) then
        some (.skipBoth, none)
      else if Feas s0 (mX s0 X) then some (.skipBoth, some ((scoreM s0 (mX s0 X) : Int) : WithTop Int))
      else (bailout (node pool s0 p X best)).map fun skip => if skip then (.skipInclusion, none) else (.continue, none) := by
  rw [Prod.fst_add, Prod.snd_add, Prod.fst_add, mL_fst, mL_snd]
  rfl

theorem bailout_ok (s0 : Selector) (pool : List (Nat × WV)) (p : Nat) (X : Finset Nat) (best : WithTop Int)
    (h : p < pool.length) : ∃ b, bailout (node pool s0 p X best) = some b := by
  unfold bailout
  by_cases hc : 0 < (node pool s0 p X best).poolPos ∧ (node pool s0 p X best).selection.isEmpty = false
  · rw [if_pos hc]
    have h1 : (node pool s0 p X best).pool[(node pool s0 p X best).poolPos]? = some pool[p] :=
      List.getElem?_eq_getElem h
    have h2 : (node pool s0 p X best).pool[(node pool s0 p X best).poolPos - 1]? = some (pool[p - 1]'(by omega)) :=
      List.getElem?_eq_getElem (by omega : p - 1 < pool.length)
    rw [h1, h2]
    exact ⟨_, rfl⟩
  · rw [if_neg hc]; exact ⟨_, rfl⟩

/-- what the bailout test says: the previous candidate is not selected and looks like the current one -/
theorem bailout_true {s0 : Selector} {pool : List (Nat × WV)} {p : Nat} {X : Finset Nat} {best : WithTop Int}
    (h : bailout (node pool s0 p X best) = some true) :
    ∃ c pc, 0 < p ∧ pool[p]? = some c ∧ pool[p - 1]? = some pc ∧ pc.1 ∉ X ∧ c.2.value = pc.2.value ∧
      c.2.weight = pc.2.weight := by
  unfold bailout at h
  by_cases hc : 0 < (node pool s0 p X best).poolPos ∧ (node pool s0 p X best).selection.isEmpty = false
  · rw [if_pos hc] at h
    have hp0 : 0 < p := hc.1
    cases h1 : pool[p]? with
    | none =>
      have h1' : (node pool s0 p X best).pool[(node pool s0 p X best).poolPos]? = none := h1
      rw [h1'] at h; cases h
    | some c =>
      have h1' : (node pool s0 p X best).pool[(node pool s0 p X best).poolPos]? = some c := h1
      cases h2 : pool[p - 1]? with
      | none =>
        have h2' : (node pool s0 p X best).pool[(node pool s0 p X best).poolPos - 1]? = none := h2
        rw [h1', h2'] at h; cases h
      | some pc =>
        have h2' : (node pool s0 p X best).pool[(node pool s0 p X best).poolPos - 1]? = some pc := h2
        rw [h1', h2'] at h
        simp only [Option.some.injEq, Bool.and_eq_true, Bool.not_eq_true', decide_eq_true_eq, node,
          Selector.isSelected, decide_eq_false_iff_not] at h
        exact ⟨c, pc, hp0, rfl, rfl, of_decide_eq_false h.1.1, h.1.2, h.2⟩
  · rw [if_neg hc] at h; cases h

theorem safe_strategy (s0 : Selector) (pool : List (Nat × WV)) : Safe (bnbStrategy s0) pool s0 := by
  intro p X best hp _
  rw [strategy_node]
  by_cases h1 : (mX s0 X + mL s0 (pool.drop p)).1 < targetAbs s0.opts ∨
          (mX s0 X + mL s0 (pool.drop p)).2.1 < s0.effectiveTarget
  · rw [if_pos h1]; exact ⟨_, rfl, fun _ => rfl⟩
  rw [if_neg h1]
  by_cases h2 : Over s0 (mX s0 X)
  · rw [if_pos h2]; exact ⟨_, rfl, fun _ => rfl⟩
  rw [if_neg h2]
  by_cases h3 : s0.opts.longTerm < s0.opts.targetFeerate ∧ best < ((wasteM s0 (mX s0 X) : Int) : WithTop Int)
  · rw [if_pos h3]; exact ⟨_, rfl, fun _ => rfl⟩
  rw [if_neg h3]
  by_cases h4 : Feas s0 (mX s0 X)
  · rw [if_pos h4]; exact ⟨_, rfl, fun _ => rfl⟩
  rw [if_neg h4]
  by_cases h5 : p = pool.length
  · exfalso
    apply h4
    rw [h5, List.drop_length, mL_nil, add_zero] at h1
    push Not at h1
    exact h1
  · obtain ⟨b, hb⟩ := bailout_ok s0 pool p X best (by omega)
    rw [hb]
    exact ⟨_, rfl, fun h => absurd h h5⟩

/-- every good selection below the node is matched by a prefix of it with a score no better than `b` -/
def Cov (s0 : Selector) (m : Meas) (L : List (Nat × WV)) (b : WithTop Int) : Prop :=
  ∀ R, R.Sublist L → Good s0 (m + mL s0 R) →
    ∃ j, Feas s0 (m + mL s0 (R.take j)) ∧ b ≤ ((scoreM s0 (m + mL s0 (R.take j)) : Int) : WithTop Int)

/-- the inclusion branch of `c` has been covered already -/
def Inc (s0 : Selector) (m : Meas) (c : Nat × WV) (L : List (Nat × WV)) (b : WithTop Int) : Prop :=
  ∀ R, R.Sublist L → Good s0 (m + mL s0 (c :: R)) →
    ∃ j, Feas s0 (m + mL s0 ((c :: R).take j)) ∧ b ≤ ((scoreM s0 (m + mL s0 ((c :: R).take j)) : Int) : WithTop Int)

theorem cov_mono {s0 : Selector} {m : Meas} {L : List (Nat × WV)} {b b' : WithTop Int} (h : Cov s0 m L b)
    (hb : b' ≤ b) : Cov s0 m L b' := by
  intro R hR hg
  obtain ⟨j, h1, h2⟩ := h R hR hg
  exact ⟨j, h1, le_trans hb h2⟩

theorem inc_of_cov {s0 : Selector} {m : Meas} {c : Nat × WV} {L : List (Nat × WV)} {b : WithTop Int}
    (h : Cov s0 (m + mc s0 c) L b) : Inc s0 m c L b := by
  intro R hR hg
  rw [mL_cons, ← add_assoc] at hg
  obtain ⟨j, h1, h2⟩ := h R hR hg
  refine ⟨j + 1, ?_⟩
  rw [List.take_succ_cons, mL_cons, ← add_assoc]
  exact ⟨h1, h2⟩

theorem cov_of_inc {s0 : Selector} {m : Meas} {c : Nat × WV} {L : List (Nat × WV)} {b : WithTop Int}
    (h1 : Inc s0 m c L b) (h2 : Cov s0 m L b) : Cov s0 m (c :: L) b := by
  intro R hR hg
  rcases List.sublist_cons_iff.1 hR with h | ⟨R', rfl, h⟩
  · exact h2 R h hg
  · exact h1 R' h hg

/-- a candidate that looks like the previous one is covered if the previous one is -/
theorem inc_swap {s0 : Selector} {m : Meas} {c c' : Nat × WV} {L L' : List (Nat × WV)} {b : WithTop Int}
    (h : Inc s0 m c L b) (hL : L'.Sublist L) (hv : c'.2.value = c.2.value) (hw : c'.2.weight = c.2.weight) :
    Inc s0 m c' L' b := by
  have hmc : mc s0 c' = mc s0 c := by
    simp only [mc, WV.eff, hv, hw]
  intro R hR hg
  have hcons : ∀ R, mL s0 (c' :: R) = mL s0 (c :: R) := fun R => by rw [mL_cons, mL_cons, hmc]
  rw [hcons] at hg
  obtain ⟨j, h1, h2⟩ := h R (hR.trans hL) hg
  refine ⟨j, ?_⟩
  cases j with
  | zero => exact ⟨h1, h2⟩
  | succ j =>
    rw [List.take_succ_cons, hcons]
    exact ⟨h1, h2⟩

/-- what the walk below a node yields -/
structure Out (s0 : Selector) (pool : List (Nat × WV)) (p : Nat) (X : Finset Nat) (best : WithTop Int)
    (r : List (Option Selector) × WithTop Int) : Prop where
  le : r.2 ≤ best
  cov : Cov s0 (mX s0 X) (pool.drop p) r.2
  items : ∀ Y, some Y ∈ r.1 → ∃ R, R.Sublist (pool.drop p) ∧
    Y = { s0 with selected := X ∪ (R.map (·.1)).toFinset } ∧ Good s0 (mX s0 X + mL s0 R)
  last : (r.2 = best ∧ ∀ y ∈ r.1, y = none) ∨
    ∃ Y, some Y ∈ r.1 ∧ (∀ acc, lastOr r.1 acc = some Y) ∧
      r.2 = ((scoreM s0 (mX s0 Y.selected) : Int) : WithTop Int)

theorem lastOr_none {α : Type} {l : List (Option α)} (h : ∀ y ∈ l, y = none) (acc : Option α) :
    lastOr l acc = acc := by
  induction l with
  | nil => rfl
  | cons x xs ih =>
    rw [lastOr_cons, h x List.mem_cons_self]
    exact ih (fun y hy => h y (List.mem_cons_of_mem _ hy))

/-- a node at which both branches are skipped -/
theorem out_skip {s0 : Selector} {pool : List (Nat × WV)} {p : Nat} {X : Finset Nat} {best : WithTop Int}
    {d : Branch × Option (WithTop Int)} (hpg : PoolGood s0 pool)
    (hd : bnbStrategy s0 (node pool s0 p X best) = some d) (hb : d.1 = .skipBoth) :
    Out s0 pool p X best ([(BnbIter.advertise (node pool s0 p X best) d.2).2],
      (BnbIter.advertise (node pool s0 p X best) d.2).1.best) := by
  have hposd : ∀ e ∈ pool.drop p, 0 < e.2.eff s0.opts.targetFeerate :=
    fun e he => hpg.pos e (List.mem_of_mem_drop he)
  have hnil : ∀ R : List (Nat × WV), (mL s0 ([] : List (Nat × WV))).1 = 0 ∧ (mL s0 ([] : List (Nat × WV))).2.1 = 0 ∧
    (mL s0 ([] : List (Nat × WV))).2.2 = 0 := fun _ => ⟨rfl, rfl, rfl⟩
  rw [strategy_node] at hd
  -- nothing is advertised and nothing good is below
  have hnone : d = (.skipBoth, none) → Cov s0 (mX s0 X) (pool.drop p) best →
      Out s0 pool p X best ([(BnbIter.advertise (node pool s0 p X best) d.2).2],
        (BnbIter.advertise (node pool s0 p X best) d.2).1.best) := by
    intro hd hcov
    subst hd
    refine ⟨le_refl _, hcov, ?_, Or.inl ⟨rfl, ?_⟩⟩
    · intro Y hY
      simp [BnbIter.advertise] at hY
    · intro y hy
      simpa [BnbIter.advertise] using hy
  by_cases h1 : (mX s0 X + mL s0 (pool.drop p)).1 < targetAbs s0.opts ∨
          (mX s0 X + mL s0 (pool.drop p)).2.1 < s0.effectiveTarget
  · rw [if_pos h1] at hd
    refine hnone (Option.some.inj hd).symm ?_
    intro R hR hg
    exfalso
    obtain ⟨g1, g2, _⟩ := mL_sublist hR hposd
    have := hg.1
    unfold Feas at this
    simp only [Prod.fst_add, Prod.snd_add] at this h1
    omega
  rw [if_neg h1] at hd
  by_cases h2 : Over s0 (mX s0 X)
  · rw [if_pos h2] at hd
    refine hnone (Option.some.inj hd).symm ?_
    intro R hR hg
    exfalso
    obtain ⟨g1, g2, _⟩ := mL_sublist (List.nil_sublist R) (fun e he => hposd e (hR.subset he))
    obtain ⟨k1, k2, k3⟩ := hnil R
    apply hg.2
    unfold Over at h2 ⊢
    simp only [Prod.fst_add, Prod.snd_add]
    omega
  rw [if_neg h2] at hd
  by_cases h3 : s0.opts.longTerm < s0.opts.targetFeerate ∧ best < ((wasteM s0 (mX s0 X) : Int) : WithTop Int)
  · rw [if_pos h3] at hd
    refine hnone (Option.some.inj hd).symm ?_
    intro R hR hg
    refine ⟨R.length, ?_⟩
    rw [List.take_length]
    refine ⟨hg.1, ?_⟩
    refine le_trans (le_of_lt h3.2) ?_
    rw [WithTop.coe_le_coe]
    unfold scoreM
    have hw : wasteM s0 (mX s0 X) ≤ wasteM s0 (mX s0 X + mL s0 R) := by
      unfold wasteM
      apply truncI_mono
      refine product_mono ?_ (f32_nonneg (by linarith [h3.1]))
      simp only [Prod.snd_add]
      exact Nat.le_add_right _ _
    have := hg.1.2
    omega
  rw [if_neg h3] at hd
  by_cases h4 : Feas s0 (mX s0 X)
  · rw [if_pos h4] at hd
    have hd' := (Option.some.inj hd).symm
    subst hd'
    simp only [BnbIter.advertise, Bnb.advertise]
    have hcovX : ∀ b : WithTop Int, b ≤ ((scoreM s0 (mX s0 X) : Int) : WithTop Int) →
        Cov s0 (mX s0 X) (pool.drop p) b := by
      intro b hb R hR hg
      refine ⟨0, ?_⟩
      rw [List.take_zero, mL_nil, add_zero]
      exact ⟨h4, hb⟩
    by_cases hle : ((scoreM s0 (mX s0 X) : Int) : WithTop Int) ≤ (node pool s0 p X best).best
    · simp only [hle, if_true]
      refine ⟨hle, hcovX _ (le_refl _), ?_, Or.inr ?_⟩
      · intro Y hY
        simp only [List.mem_singleton, Option.some.injEq] at hY
        refine ⟨[], List.nil_sublist _, ?_, ?_⟩
        · rw [hY]; simp [node]
        · rw [mL_nil, add_zero]; exact ⟨h4, h2⟩
      · exact ⟨_, List.mem_singleton.2 rfl, fun acc => rfl, rfl⟩
    · simp only [hle, if_false]
      refine ⟨le_refl _, hcovX _ (le_of_lt (not_le.1 hle)), ?_, Or.inl ⟨rfl, ?_⟩⟩
      · intro Y hY; simp at hY
      · intro y hy; simpa using hy
  · rw [if_neg h4] at hd
    exfalso
    cases hbo : bailout (node pool s0 p X best) with
    | none => rw [hbo] at hd; cases hd
    | some b =>
      rw [hbo] at hd
      have := (Option.some.inj hd).symm
      subst this
      cases b <;> cases hb

/-- when the walk continues nothing is advertised -/
theorem no_score {s0 : Selector} {pool : List (Nat × WV)} {p : Nat} {X : Finset Nat} {best : WithTop Int}
    {d : Branch × Option (WithTop Int)}
    (hd : bnbStrategy s0 (node pool s0 p X best) = some d) (hb : d.1 ≠ .skipBoth) :
    d.2 = none ∧ (bailout (node pool s0 p X best) = some true ↔ d.1 = .skipInclusion) := by
  rw [strategy_node] at hd
  split at hd
  · exact absurd (congrArg (·.1) (Option.some.inj hd)).symm hb
  split at hd
  · exact absurd (congrArg (·.1) (Option.some.inj hd)).symm hb
  split at hd
  · exact absurd (congrArg (·.1) (Option.some.inj hd)).symm hb
  split at hd
  · exact absurd (congrArg (·.1) (Option.some.inj hd)).symm hb
  cases hbo : bailout (node pool s0 p X best) with
  | none => rw [hbo] at hd; cases hd
  | some b =>
    rw [hbo] at hd
    have := (Option.some.inj hd).symm
    subst this
    cases b <;> simp

theorem visit_out {s0 : Selector} {pool : List (Nat × WV)} (hpg : PoolGood s0 pool) :
    ∀ (k : Nat) (X : Finset Nat) (best : WithTop Int), k ≤ pool.length → Fresh pool (pool.length - k) X →
    (bailout (node pool s0 (pool.length - k) X best) = some true → ∀ c L, pool.drop (pool.length - k) = c :: L →
      Inc s0 (mX s0 X) c L best) →
    Out s0 pool (pool.length - k) X best (visit (bnbStrategy s0) pool s0 k X best) := by
  intro k
  induction k with
  | zero =>
    intro X best hk hf hpre
    obtain ⟨d, hd, hlast⟩ := safe_strategy s0 pool pool.length X best (le_refl _) hf
    have hv : visit (bnbStrategy s0) pool s0 0 X best =
        ([(BnbIter.advertise (node pool s0 pool.length X best) d.2).2],
        (BnbIter.advertise (node pool s0 pool.length X best) d.2).1.best) := by
      simp only [visit, hd]
    rw [hv]
    exact out_skip hpg hd (hlast rfl)
  | succ k ih =>
    intro X best hk hf hpre
    have hlt : pool.length - (k + 1) < pool.length := by omega
    have hsucc : pool.length - (k + 1) + 1 = pool.length - k := by omega
    obtain ⟨d, hd, hlast⟩ := safe_strategy s0 pool (pool.length - (k + 1)) X best (by omega) hf
    have hdrop : pool.drop (pool.length - (k + 1)) = pool[pool.length - (k + 1)] :: pool.drop (pool.length - k) := by
      rw [← hsucc]; exact List.drop_eq_getElem_cons hlt
    have hget : pool[pool.length - (k + 1)]? = some pool[pool.length - (k + 1)] := List.getElem?_eq_getElem hlt
    have hgD : (pool.getD (pool.length - (k + 1)) default).1 = pool[pool.length - (k + 1)].1 := by
      rw [List.getD_eq_getElem?_getD, hget]; rfl
    generalize hc : pool[pool.length - (k + 1)] = c at *
    have hcm : c ∈ pool := by rw [← hc]; exact List.getElem_mem hlt
    have hcX : c.1 ∉ X := by apply hf; rw [hdrop]; exact List.mem_cons_self
    have hfresh0 : Fresh pool (pool.length - k) X := by rw [← hsucc]; exact fresh_succ hf
    have hfresh1 : Fresh pool (pool.length - k) (insert c.1 X) := by
      rw [← hsucc, ← hc]; exact fresh_insert hpg.nodup hlt hf
    -- the precondition of the omission branch
    have hpre2 : ∀ b, Inc s0 (mX s0 X) c (pool.drop (pool.length - k)) b →
        bailout (node pool s0 (pool.length - k) X b) = some true → ∀ c' L, pool.drop (pool.length - k) = c' :: L →
        Inc s0 (mX s0 X) c' L b := by
      intro b hinc hbo c' L hL
      obtain ⟨c1, pc, hp0, g1, g2, g3, g4, g5⟩ := bailout_true hbo
      have e2 : pc = c := by
        rw [← hsucc, Nat.add_sub_cancel, hget] at g2
        exact (Option.some.inj g2).symm
      have e1 : c1 = c' := by
        have hh : (pool.drop (pool.length - k))[0]? = some c' := by rw [hL]; rfl
        rw [List.getElem?_drop, Nat.add_zero, g1] at hh
        exact Option.some.inj hh
      subst e1; subst e2
      exact inc_swap hinc (by rw [hL]; exact List.sublist_cons_self _ _) g4 g5
    by_cases hb : d.1 = .skipBoth
    · have hv : visit (bnbStrategy s0) pool s0 (k + 1) X best =
          ([(BnbIter.advertise (node pool s0 (pool.length - (k + 1)) X best) d.2).2],
          (BnbIter.advertise (node pool s0 (pool.length - (k + 1)) X best) d.2).1.best) := by
        simp only [visit, hd, hb]
      rw [hv]
      exact out_skip hpg hd hb
    · obtain ⟨hs, hbo⟩ := no_score hd hb
      obtain ⟨br, sc⟩ := d
      simp only at hs hb hbo
      subst hs
      cases br with
      | skipBoth => exact absurd rfl hb
      | skipInclusion =>
        have hinc := hpre (hbo.2 rfl) c _ hdrop
        have hv : visit (bnbStrategy s0) pool s0 (k + 1) X best =
            (none :: (visit (bnbStrategy s0) pool s0 k X best).1, (visit (bnbStrategy s0) pool s0 k X best).2) := by
          simp only [visit, hd]; rfl
        have h := ih X best (by omega) hfresh0 (hpre2 best hinc)
        rw [hv]
        refine ⟨h.le, ?_, ?_, ?_⟩
        · rw [hdrop]
          refine cov_of_inc ?_ h.cov
          intro R hR hg
          obtain ⟨j, h1, h2⟩ := hinc R hR hg
          exact ⟨j, h1, le_trans h.le h2⟩
        · intro Y hY
          simp only [List.mem_cons, reduceCtorEq, false_or] at hY
          obtain ⟨R, h1, h2⟩ := h.items Y hY
          exact ⟨R, h1.trans (by rw [hdrop]; exact List.sublist_cons_self _ _), h2⟩
        · rcases h.last with ⟨h1, h2⟩ | ⟨Y, h1, h2, h3⟩
          · left
            refine ⟨h1, ?_⟩
            intro y hy
            rcases List.mem_cons.1 hy with rfl | hy
            · rfl
            · exact h2 y hy
          · right
            exact ⟨Y, List.mem_cons_of_mem _ h1, fun acc => by rw [lastOr_cons]; exact h2 _, h3⟩
      | «continue» =>
        have hv : visit (bnbStrategy s0) pool s0 (k + 1) X best =
            (none :: ((visit (bnbStrategy s0) pool s0 k (insert c.1 X) best).1 ++
              (visit (bnbStrategy s0) pool s0 k X (visit (bnbStrategy s0) pool s0 k (insert c.1 X) best).2).1),
            (visit (bnbStrategy s0) pool s0 k X (visit (bnbStrategy s0) pool s0 k (insert c.1 X) best).2).2) := by
          simp only [visit, hd, hgD]; rfl
        have hm1 := mX_insert (hpg.cand c hcm) hcX
        have hpre1 : bailout (node pool s0 (pool.length - k) (insert c.1 X) best) = some true →
            ∀ c' L, pool.drop (pool.length - k) = c' :: L → Inc s0 (mX s0 (insert c.1 X)) c' L best := by
          intro hbo
          exfalso
          obtain ⟨c1, pc, hp0, g1, g2, g3, _⟩ := bailout_true hbo
          rw [← hsucc, Nat.add_sub_cancel, hget] at g2
          apply g3
          rw [← Option.some.inj g2]
          exact Finset.mem_insert_self _ _
        have h1 := ih (insert c.1 X) best (by omega) hfresh1 hpre1
        have hinc1 : Inc s0 (mX s0 X) c (pool.drop (pool.length - k))
            (visit (bnbStrategy s0) pool s0 k (insert c.1 X) best).2 := by
          apply inc_of_cov
          rw [← hm1]
          exact h1.cov
        have h2 := ih X _ (by omega) hfresh0 (hpre2 _ hinc1)
        rw [hv]
        refine ⟨le_trans h2.le h1.le, ?_, ?_, ?_⟩
        · rw [hdrop]
          refine cov_of_inc ?_ h2.cov
          intro R hR hg
          obtain ⟨j, k1, k2⟩ := hinc1 R hR hg
          exact ⟨j, k1, le_trans h2.le k2⟩
        · intro Y hY
          simp only [List.mem_cons, reduceCtorEq, false_or, List.mem_append] at hY
          rcases hY with hY | hY
          · obtain ⟨R, k1, k2, k3⟩ := h1.items Y hY
            refine ⟨c :: R, ?_, ?_, ?_⟩
            · rw [hdrop]; exact List.Sublist.cons_cons _ k1
            · rw [k2, List.map_cons, List.toFinset_cons, Finset.insert_union, Finset.union_insert]
            · rw [mL_cons, ← add_assoc, ← hm1]; exact k3
          · obtain ⟨R, k1, k2⟩ := h2.items Y hY
            exact ⟨R, k1.trans (by rw [hdrop]; exact List.sublist_cons_self _ _), k2⟩
        · rcases h2.last with ⟨e1, e2⟩ | ⟨Y, e1, e2, e3⟩
          · rcases h1.last with ⟨f1, f2⟩ | ⟨Y, f1, f2, f3⟩
            · left
              refine ⟨e1.trans f1, ?_⟩
              intro y hy
              simp only [List.mem_cons, List.mem_append] at hy
              rcases hy with rfl | hy | hy
              · rfl
              · exact f2 y hy
              · exact e2 y hy
            · right
              refine ⟨Y, ?_, ?_, ?_⟩
              · exact List.mem_cons_of_mem _ (List.mem_append_left _ f1)
              · intro acc
                rw [lastOr_cons, lastOr_append, lastOr_none e2]; exact f2 _
              · simp only at e1 ⊢
                rw [e1]; exact f3
          · right
            refine ⟨Y, ?_, ?_, e3⟩
            · exact List.mem_cons_of_mem _ (List.mem_append_right _ e1)
            · intro acc
              rw [lastOr_cons, lastOr_append]; exact e2 _

end Verif.CoinSelect
