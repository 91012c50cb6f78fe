import Verif.Lemmas.Cli
import Verif.Props.PlanWeight
import Verif.Props.KeyDerive
import Verif.Props.Bnb
import Verif.Spec.CreateTx

/-!
# Lemmas about `create_tx`
-/

set_option linter.unusedSectionVars false

namespace Verif.Cli
open Verif Verif.CoinSelect Verif.Planner Verif.Spec Verif.Props Verif.Cli.Spec

variable {D Key Ak Sec XPrv Msg T P : Type} [DescriptorOps D] [DecidableEq D] [LinearOrder P] [ChainPosition P] [LinearOrder T]
  [AsTransaction T] [DecidableEq Key]

/-! ### weight -/

theorem witnessLen_eq (w : List Planner.Bytes) : witnessLen w = Planner.Spec.witnessSize w := by
  unfold witnessLen Planner.Spec.witnessSize
  simp only [varintSize_eq]

theorem txoutSize_eq (sl : Script → Nat) (o : TxOut) : txoutSize sl o = outputSize sl o := by
  unfold txoutSize outputSize; rw [varintSize_eq]; omega

theorem weight_eq (sl : Script → Nat) (t : BuiltTx) : t.weight sl = txWeight sl t := by
  have h0 : ∀ l : List TxIn, (∀ i ∈ l, i.witness = []) → (l.map txinWeight).sum = 4 * (l.length * 41) := by
    intro l
    induction l with
    | nil => intro _; rfl
    | cons i l ih =>
      intro h
      rw [List.map_cons, List.sum_cons, ih (fun j hj => h j (List.mem_cons_of_mem _ hj)), List.length_cons, txinWeight,
        if_pos (h i List.mem_cons_self)]
      omega
  have h1 : ∀ l : List TxIn, (l.map txinWeight).sum + (l.length - l.countP fun i => decide (i.witness ≠ [])) =
      4 * (l.length * 41) + (l.map fun i => Planner.Spec.witnessSize i.witness).sum := by
    intro l
    induction l with
    | nil => rfl
    | cons i l ih =>
      have hc : (l.countP fun i => decide (i.witness ≠ [])) ≤ l.length := List.countP_le_length
      simp only [List.map_cons, List.sum_cons, List.length_cons, List.countP_cons]
      by_cases hw : i.witness = []
      · have : Planner.Spec.witnessSize i.witness = 1 := by rw [hw]; rfl
        rw [this, txinWeight, if_pos hw]
        simp only [hw, ne_eq, not_true_eq_false, decide_false, Bool.false_eq_true, if_false]
        simp only [ne_eq] at ih hc
        omega
      · rw [txinWeight, if_neg hw, witnessLen_eq]
        simp only [hw, ne_eq, not_false_eq_true, decide_true, if_true]
        simp only [ne_eq] at ih hc
        omega
  unfold BuiltTx.weight txWeight totalSize strippedSize
  have ho : (t.output.map (txoutSize sl)) = t.output.map (outputSize sl) := by
    apply List.map_congr_left; intro o _; exact txoutSize_eq sl o
  simp only [varintSize_eq, ho]
  by_cases hw : ∃ i ∈ t.input, i.witness ≠ []
  · rw [if_pos hw]
    have hz : (t.input.countP fun i => decide (i.witness ≠ [])) ≠ 0 := by
      intro hz
      rw [List.countP_eq_zero] at hz
      obtain ⟨i, hi, hn⟩ := hw
      have := hz i hi
      exact this (by simpa using hn)
    rw [if_neg hz]
    have := h1 t.input
    omega
  · rw [if_neg hw]
    have hall : ∀ i ∈ t.input, i.witness = [] := fun i hi => by
      by_contra hn; exact hw ⟨i, hi, hn⟩
    have hz : (t.input.countP fun i => decide (i.witness ≠ [])) = 0 := by
      rw [List.countP_eq_zero]
      intro i hi
      simp [hall i hi]
    rw [if_pos hz, h0 _ hall]
    omega

/-! ### plans without time locks and preimages -/

/-- items that only need keys -/
def KeyItem (i : TemplateItem Key Ak) : Prop := (∃ k, i = .sign k) ∨ (∃ k, i = .pk k) ∨ i = .one ∨ i = .zero

theorem combine_inv {l r p : TermPlan Key Ak} (h : l.combine r = some p) (hl : l.minLocktime = none ∧ l.minSequence = none)
    (hr : r.minLocktime = none ∧ r.minSequence = none) :
    p = ⟨none, none, l.template ++ r.template⟩ := by
  unfold TermPlan.combine at h
  rw [hl.1, hl.2, hr.1, hr.2] at h
  simp only [TermPlan.combineLocktime, TermPlan.combineSequence] at h
  exact (Option.some.inj h).symm

theorem keysOnly_plan (cd : Ak → Key → Option Path) (ks : List Ak) (ms : Ms Key) : ∀ (tp : TermPlan Key Ak),
    planSteps cd { keys := ks } ms = .ret (some tp) →
      (tp.minLocktime = none ∧ tp.minSequence = none) ∧ (∀ i ∈ tp.template, KeyItem i) ∧
      (NeedsSig ms → ∃ k, .sign k ∈ tp.template) := by
  induction ms with
  | tru => intro tp h; simp only [planSteps, Out.ret.injEq, Option.some.injEq] at h; subst h; exact ⟨⟨rfl, rfl⟩, by simp, fun h => h.elim⟩
  | fls => intro tp h; simp [planSteps] at h
  | pkK k =>
    intro tp h
    simp only [planSteps, Out.ret.injEq, Option.map_eq_some_iff] at h
    obtain ⟨pk, -, rfl⟩ := h
    exact ⟨⟨rfl, rfl⟩, by intro i hi; simp at hi; exact .inl ⟨pk, hi⟩, fun _ => ⟨pk, by simp⟩⟩
  | pkH k =>
    intro tp h
    simp only [planSteps, Out.ret.injEq, Option.map_eq_some_iff] at h
    obtain ⟨pk, -, rfl⟩ := h
    refine ⟨⟨rfl, rfl⟩, ?_, fun _ => ⟨pk, by simp⟩⟩
    intro i hi
    simp at hi
    rcases hi with hi | hi
    · exact .inl ⟨pk, hi⟩
    · exact .inr (.inl ⟨k, hi⟩)
  | rawPkH _ => intro tp h; simp [planSteps] at h
  | after n => intro tp h; simp [planSteps, planAfter] at h
  | older n => intro tp h; simp [planSteps, planOlder] at h
  | sha256 _ => intro tp h; simp [planSteps] at h
  | hash256 _ => intro tp h; simp [planSteps] at h
  | ripemd160 _ => intro tp h; simp [planSteps] at h
  | hash160 _ => intro tp h; simp [planSteps] at h
  | alt x ih => exact ih
  | swap x ih => exact ih
  | check x ih => exact ih
  | verify x ih => exact ih
  | nonZero x ih => exact ih
  | zeroNotEqual x ih => exact ih
  | dupIf x ih =>
    intro tp h
    simp only [planSteps] at h
    cases hx : planSteps cd { keys := ks } x with
    | panic => rw [hx] at h; cases h
    | ret p =>
      rw [hx] at h
      simp only [Out.ret.injEq, Option.map_eq_some_iff] at h
      obtain ⟨q, rfl, rfl⟩ := h
      obtain ⟨h1, h2, h3⟩ := ih q hx
      refine ⟨h1, ?_, ?_⟩
      · intro i hi
        simp only [TermPlan.push, List.mem_append, List.mem_singleton] at hi
        rcases hi with hi | hi
        · exact h2 i hi
        · exact .inr (.inr (.inl hi))
      · intro hs
        obtain ⟨k, hk⟩ := h3 hs
        exact ⟨k, by simp [TermPlan.push, hk]⟩
  | andV x y ihx ihy =>
    intro tp h
    simp only [planSteps] at h
    cases hx : planSteps cd { keys := ks } x with
    | panic => rw [hx] at h; cases h
    | ret p =>
      rw [hx] at h
      cases p with
      | none => simp at h
      | some l =>
        cases hy : planSteps cd { keys := ks } y with
        | panic => rw [hy] at h; cases h
        | ret q =>
          rw [hy] at h
          cases q with
          | none => simp at h
          | some r =>
            simp only [Out.ret.injEq] at h
            obtain ⟨a1, a2, a3⟩ := ihx l hx
            obtain ⟨b1, b2, b3⟩ := ihy r hy
            have := combine_inv h a1 b1
            subst this
            refine ⟨⟨rfl, rfl⟩, ?_, ?_⟩
            · intro i hi
              rcases List.mem_append.1 hi with hi | hi
              · exact a2 i hi
              · exact b2 i hi
            · rintro (hs | hs)
              · obtain ⟨k, hk⟩ := a3 hs; exact ⟨k, by simp [hk]⟩
              · obtain ⟨k, hk⟩ := b3 hs; exact ⟨k, by simp [hk]⟩
  | andB x y ihx ihy =>
    intro tp h
    simp only [planSteps] at h
    cases hx : planSteps cd { keys := ks } x with
    | panic => rw [hx] at h; cases h
    | ret p =>
      rw [hx] at h
      cases p with
      | none => simp at h
      | some l =>
        cases hy : planSteps cd { keys := ks } y with
        | panic => rw [hy] at h; cases h
        | ret q =>
          rw [hy] at h
          cases q with
          | none => simp at h
          | some r =>
            simp only [Out.ret.injEq] at h
            obtain ⟨a1, a2, a3⟩ := ihx l hx
            obtain ⟨b1, b2, b3⟩ := ihy r hy
            have := combine_inv h a1 b1
            subst this
            refine ⟨⟨rfl, rfl⟩, ?_, ?_⟩
            · intro i hi
              rcases List.mem_append.1 hi with hi | hi
              · exact a2 i hi
              · exact b2 i hi
            · rintro (hs | hs)
              · obtain ⟨k, hk⟩ := a3 hs; exact ⟨k, by simp [hk]⟩
              · obtain ⟨k, hk⟩ := b3 hs; exact ⟨k, by simp [hk]⟩
  | orI x y ihx ihy =>
    intro tp h
    simp only [planSteps] at h
    cases hx : planSteps cd { keys := ks } x with
    | panic => rw [hx] at h; cases h
    | ret p =>
      rw [hx] at h
      cases hy : planSteps cd { keys := ks } y with
      | panic => rw [hy] at h; cases h
      | ret q =>
        rw [hy] at h
        simp only [Out.ret.injEq] at h
        have hpick : (∃ l, p = some l ∧ tp = l.push .one) ∨ (∃ r, q = some r ∧ tp = r.push .zero) := by
          cases p with
          | none =>
            cases q with
            | none => cases h
            | some r => exact .inr ⟨r, rfl, (Option.some.inj h).symm⟩
          | some l =>
            cases q with
            | none => exact .inl ⟨l, rfl, (Option.some.inj h).symm⟩
            | some r =>
              simp only [pickSmaller, Option.map_some] at h
              split at h
              · exact .inl ⟨l, rfl, (Option.some.inj h).symm⟩
              · exact .inr ⟨r, rfl, (Option.some.inj h).symm⟩
        rcases hpick with ⟨l, rfl, rfl⟩ | ⟨r, rfl, rfl⟩
        · obtain ⟨h1, h2, h3⟩ := ihx l hx
          refine ⟨h1, ?_, ?_⟩
          · intro i hi
            simp only [TermPlan.push, List.mem_append, List.mem_singleton] at hi
            rcases hi with hi | hi
            · exact h2 i hi
            · exact .inr (.inr (.inl hi))
          · rintro ⟨hs, -⟩
            obtain ⟨k, hk⟩ := h3 hs
            exact ⟨k, by simp [TermPlan.push, hk]⟩
        · obtain ⟨h1, h2, h3⟩ := ihy r hy
          refine ⟨h1, ?_, ?_⟩
          · intro i hi
            simp only [TermPlan.push, List.mem_append, List.mem_singleton] at hi
            rcases hi with hi | hi
            · exact h2 i hi
            · exact .inr (.inr (.inr hi))
          · rintro ⟨-, hs⟩
            obtain ⟨k, hk⟩ := h3 hs
            exact ⟨k, by simp [TermPlan.push, hk]⟩
  | andOr => intro tp h; simp [planSteps] at h
  | orB => intro tp h; simp [planSteps] at h
  | orD => intro tp h; simp [planSteps] at h
  | orC => intro tp h; simp [planSteps] at h
  | thresh => intro tp h; simp [planSteps] at h
  | multi => intro tp h; simp [planSteps] at h
  | multiA => intro tp h; simp [planSteps] at h

/-- a plan of the wallet needs no time locks and no preimages -/
theorem env_plan {env : Env D Key Ak Sec XPrv Msg T} {d : D} {i : Nat} {p : Plan Key Ak} (h : env.plan d i = .ret (some p)) :
    p.setLocktime = none ∧ p.setSequence = none ∧ p.tr = env.trAt d i ∧ ∀ x ∈ p.template, KeyItem x := by
  rcases planTr_cases h with ⟨pk, -, rfl⟩ | ⟨-, b, dd, ms, af, tp, -, h1, rfl, -⟩
  · exact ⟨rfl, rfl, rfl, by intro x hx; simp at hx; exact .inl ⟨pk, hx⟩⟩
  · obtain ⟨⟨a1, a2⟩, a3, -⟩ := keysOnly_plan _ _ _ _ h1
    exact ⟨a1, a2, rfl, a3⟩

theorem supported_no_panic (cd : Ak → Key → Option Path) (a : Assets Ak) (ms : Ms Key) (h : Planner.Spec.Supported ms) :
    ∃ o, planSteps cd a ms = .ret o := by
  induction ms with
  | dupIf x ih => obtain ⟨o, ho⟩ := ih h; exact ⟨_, by simp only [planSteps, ho]; rfl⟩
  | alt x ih => exact ih h
  | swap x ih => exact ih h
  | check x ih => exact ih h
  | verify x ih => exact ih h
  | nonZero x ih => exact ih h
  | zeroNotEqual x ih => exact ih h
  | andV x y ihx ihy =>
    obtain ⟨o, ho⟩ := ihx h.1
    obtain ⟨o', ho'⟩ := ihy h.2
    cases o with
    | none => exact ⟨_, by simp only [planSteps, ho]; rfl⟩
    | some l => cases o' <;> exact ⟨_, by simp only [planSteps, ho, ho']; rfl⟩
  | andB x y ihx ihy =>
    obtain ⟨o, ho⟩ := ihx h.1
    obtain ⟨o', ho'⟩ := ihy h.2
    cases o with
    | none => exact ⟨_, by simp only [planSteps, ho]; rfl⟩
    | some l => cases o' <;> exact ⟨_, by simp only [planSteps, ho, ho']; rfl⟩
  | orI x y ihx ihy =>
    obtain ⟨o, ho⟩ := ihx h.1
    obtain ⟨o', ho'⟩ := ihy h.2
    exact ⟨_, by simp only [planSteps, ho, ho']; rfl⟩
  | _ => first | exact h.elim | exact ⟨_, rfl⟩

/-! ### collecting the candidates -/

theorem plannedUtxos_spec {env : Env D Key Ak Sec XPrv Msg T} {t : Tracker Keychain D P T}
    {l : List ((Keychain × Nat) × FullTxOut P)} {r} (h : plannedUtxos env t l = some r) :
    (r.map Prod.snd).Sublist (l.map Prod.snd) ∧
    (∀ p f, (p, f) ∈ r ↔ ∃ k i d, ((k, i), f) ∈ l ∧ t.txoutIndex.keychains.get k = some d ∧ env.plan d i = .ret (some p)) := by
  induction l generalizing r with
  | nil => cases h; exact ⟨List.Sublist.slnil, by simp⟩
  | cons e l ih =>
    obtain ⟨⟨k, i⟩, f⟩ := e
    simp only [plannedUtxos] at h
    cases hk : t.txoutIndex.keychains.get k with
    | none => rw [hk] at h; cases h
    | some d =>
      rw [hk] at h
      simp only at h
      cases hp : env.plan d i with
      | panic => rw [hp] at h; cases h
      | ret o =>
        rw [hp] at h
        cases o with
        | none =>
          simp only at h
          obtain ⟨h1, h2⟩ := ih h
          refine ⟨h1.cons _, fun p g => ?_⟩
          rw [h2]
          constructor
          · rintro ⟨k', i', d', hm, a1, a2⟩
            exact ⟨k', i', d', List.mem_cons_of_mem _ hm, a1, a2⟩
          · rintro ⟨k', i', d', hm, a1, a2⟩
            rcases List.mem_cons.1 hm with hm | hm
            · cases hm
              rw [hk] at a1; cases a1
              rw [hp] at a2; cases a2
            · exact ⟨k', i', d', hm, a1, a2⟩
        | some q =>
          simp only [Option.map_eq_some_iff] at h
          obtain ⟨r', hr', rfl⟩ := h
          obtain ⟨h1, h2⟩ := ih hr'
          refine ⟨by simp only [List.map_cons]; exact h1.cons_cons _, fun p g => ?_⟩
          rw [List.mem_cons, h2]
          constructor
          · rintro (hm | ⟨k', i', d', hm, a1, a2⟩)
            · cases hm; exact ⟨k, i, d, List.mem_cons_self, hk, hp⟩
            · exact ⟨k', i', d', List.mem_cons_of_mem _ hm, a1, a2⟩
          · rintro ⟨k', i', d', hm, a1, a2⟩
            rcases List.mem_cons.1 hm with hm | hm
            · cases hm
              rw [hk] at a1; cases a1
              rw [hp] at a2; cases a2
              exact .inl rfl
            · exact .inr ⟨k', i', d', hm, a1, a2⟩

theorem sortCandidates_perm (algo : Algo) (l : List (Candidate Key Ak P)) : (sortCandidates algo l).Perm l := by
  cases algo <;> first | exact List.Perm.refl _ | exact List.perm_insertionSort _ _

theorem mapM_eq {α β : Type} {f : α → Option β} {l : List α} {r : List β} (h : l.mapM f = some r) : l.map f = r.map some := by
  induction l generalizing r with
  | nil => cases h; rfl
  | cons a l ih =>
    rw [List.mapM_cons] at h
    cases ha : f a with
    | none => rw [ha] at h; cases h
    | some b =>
      rw [ha] at h
      simp only [Option.bind_eq_bind, Option.bind_some] at h
      cases hl : l.mapM f with
      | none => rw [hl] at h; cases h
      | some r' =>
        rw [hl] at h
        cases h
        rw [List.map_cons, List.map_cons, ha, ih hl]

theorem mapM_isSome {α β : Type} {f : α → Option β} {l : List α} (h : ∀ a ∈ l, (f a).isSome) : ∃ r, l.mapM f = some r := by
  induction l with
  | nil => exact ⟨[], rfl⟩
  | cons a l ih =>
    obtain ⟨b, hb⟩ := Option.isSome_iff_exists.1 (h a List.mem_cons_self)
    obtain ⟨r, hr⟩ := ih (fun x hx => h x (List.mem_cons_of_mem _ hx))
    exact ⟨b :: r, by rw [List.mapM_cons, hb, hr]; rfl⟩

/-- sums over the selected indexes are sums over the selected candidates -/
theorem applySelection_sum {α : Type} {X : Finset Nat} {cands sel : List α} (h : applySelection X cands = some sel) (g : Nat → Nat)
    (f : α → Nat) (hg : ∀ i c, cands[i]? = some c → g i = f c) : ∑ i ∈ X, g i = (sel.map f).sum := by
  have h1 := mapM_eq h
  have h2 : (X.sort (· ≤ ·)).map g = sel.map f := by
    apply List.ext_getElem?
    intro j
    have := congrArg (fun l => l[j]?) h1
    simp only [List.getElem?_map] at this ⊢
    cases hj : (X.sort (· ≤ ·))[j]? with
    | none =>
      rw [hj] at this
      cases hs : sel[j]? with
      | none => rfl
      | some c => rw [hs] at this; cases this
    | some i =>
      rw [hj] at this
      cases hs : sel[j]? with
      | none => rw [hs] at this; cases this
      | some c =>
        rw [hs] at this
        simp only [Option.map_some, Option.some.injEq] at this ⊢
        exact hg i c this
  rw [← h2, ← List.sum_toFinset g (Finset.sort_nodup _ _), Finset.sort_toFinset]

theorem applySelection_facts {α : Type} {X : Finset Nat} {cands sel : List α} (h : applySelection X cands = some sel) :
    sel.length = X.card ∧ (∀ c ∈ sel, c ∈ cands) ∧
    ∀ {β : Type} (f : α → β), (cands.map f).Nodup → (sel.map f).Nodup := by
  have h1 := mapM_eq h
  have hlen : sel.length = X.card := by
    have := congrArg List.length h1
    simpa using this.symm
  have hj : ∀ (j : Nat) (c : α), sel[j]? = some c → ∃ i, (X.sort (· ≤ ·))[j]? = some i ∧ cands[i]? = some c := by
    intro j c hs
    have := congrArg (fun l => l[j]?) h1
    simp only [List.getElem?_map, hs, Option.map_some] at this
    cases hj : (X.sort (· ≤ ·))[j]? with
    | none => rw [hj] at this; cases this
    | some i =>
      rw [hj] at this
      exact ⟨i, rfl, Option.some.inj this⟩
  refine ⟨hlen, ?_, ?_⟩
  · intro c hc
    obtain ⟨j, hj'⟩ := List.getElem?_of_mem hc
    obtain ⟨i, -, hi⟩ := hj j c hj'
    exact List.mem_of_getElem? hi
  · intro β f hn
    rw [List.nodup_iff_getElem?_ne_getElem?]
    intro a b hab hb
    rw [List.length_map] at hb
    have ha : a < sel.length := by omega
    obtain ⟨i, hi, hi'⟩ := hj a _ (List.getElem?_eq_getElem ha)
    obtain ⟨i2, hi2, hi2'⟩ := hj b _ (List.getElem?_eq_getElem hb)
    simp only [List.getElem?_map, List.getElem?_eq_getElem ha, List.getElem?_eq_getElem hb, Option.map_some, ne_eq, Option.some.injEq]
    intro he
    have hne : i ≠ i2 := by
      intro e
      subst e
      have hnd := Finset.sort_nodup X (· ≤ ·)
      rw [List.nodup_iff_getElem?_ne_getElem?] at hnd
      have hb' : b < (X.sort (· ≤ ·)).length := by
        rw [Finset.length_sort, ← hlen]; exact hb
      exact hnd a b hab hb' (hi.trans hi2.symm)
    have hii : i < cands.length := by
      by_contra hc
      rw [List.getElem?_eq_none (by omega)] at hi'
      cases hi'
    have hjj : i2 < cands.length := by
      by_contra hc
      rw [List.getElem?_eq_none (by omega)] at hi2'
      cases hi2'
    have e1 : (cands.map f)[i]? = (cands.map f)[i2]? := by
      rw [List.getElem?_map, List.getElem?_map, hi', hi2', Option.map_some, Option.map_some, he]
    rw [List.nodup_iff_getElem?_ne_getElem?] at hn
    rcases Nat.lt_or_gt_of_ne hne with hlt | hlt
    · exact hn i i2 hlt (by rw [List.length_map]; exact hjj) e1
    · exact hn i2 i hlt (by rw [List.length_map]; exact hii) e1.symm

/-! ### selecting -/

/-- whatever the algorithm, the selection is what `finish` says of some set of candidates -/
theorem runSelection_ok {algo : Algo} {luck : Luck} {s : Selector} {sel : Selection} (hs : ValidSort s.opts.targetFeerate luck.sort)
    (h0 : s.selected = ∅) (h : runSelection algo luck s = some (.ok sel)) :
    ∃ X : Finset Nat, X ⊆ Finset.range s.candidates.length ∧ ({ s with selected := X } : Selector).finish = some (.ok sel) := by
  have until_ : (s.selectUntilFinished.map (·.1)) = some (.ok sel) →
      ∃ X : Finset Nat, X ⊆ Finset.range s.candidates.length ∧ ({ s with selected := X } : Selector).finish = some (.ok sel) := by
    intro h
    rw [Option.map_eq_some_iff] at h
    obtain ⟨⟨r, s'⟩, hr, rfl⟩ := h
    obtain ⟨k, -, h2, h3, -⟩ := C46_first_sufficient s s' _ (by rw [h0]; simp) hr
    refine ⟨_, ?_, by rw [h2] at h3; exact h3⟩
    intro i hi
    unfold CoinSelect.Spec.stage at hi
    rw [h0, Finset.mem_union] at hi
    rcases hi with hi | hi
    · cases hi
    · rw [List.mem_toFinset] at hi
      have := List.mem_of_mem_take hi
      rw [Finset.mem_sort] at this
      exact (Finset.mem_sdiff.1 this).1
  unfold runSelection at h
  cases algo with
  | branchAndBound =>
    simp only at h
    cases hb : coinSelectBnb luck.sort luck.rounds s with
    | none => rw [hb] at h; cases h
    | some o =>
      rw [hb] at h
      cases o with
      | none => exact until_ h
      | some s' =>
        simp only at h
        obtain ⟨h1, h2, h3⟩ := C47_valid s s' luck.sort hs luck.rounds hb
        refine ⟨s'.selected, ?_, ?_⟩
        · intro i hi
          exact Finset.mem_range.2 (h3.adds i hi (by rw [h0]; simp)).1
        · have : ({ s with selected := s'.selected } : Selector) = s' := by
            obtain ⟨o', c', x'⟩ := s'
            simp only at h1 h2
            subst h1; subst h2; rfl
          rw [this]; exact h
  | _ => exact until_ h

/-- selection for a payment never panics and (if all candidates together weigh at most 2^24) fails only if all candidates together do
not suffice -/
theorem runSelection_total {algo : Algo} {luck : Luck} {s : Selector} (hs : ValidSort s.opts.targetFeerate luck.sort)
    (h0 : s.selected = ∅) {v : Nat} (hv : s.opts.targetValue = some v) (hr : s.opts.targetFeerate = 1 / 2) :
    ∃ r, runSelection algo luck s = some r ∧
      (CoinSelect.Spec.weight s.opts s.candidates (Finset.range s.candidates.length) ≤ 2 ^ 24 →
      ∀ e, r = .error e → ({ s with selected := Finset.range s.candidates.length } : Selector).finish = some (.error e)) := by
  have until_ : ∃ r, (s.selectUntilFinished.map (·.1)) = some r ∧
      ∀ e, r = .error e → ({ s with selected := Finset.range s.candidates.length } : Selector).finish = some (.error e) := by
    obtain ⟨⟨r, s'⟩, hr⟩ := C46_no_panic s v hv
    refine ⟨r, by rw [hr]; rfl, ?_⟩
    intro e he
    obtain ⟨k, -, h2, h3, -, -, h6⟩ := C46_first_sufficient s s' _ (by rw [h0]; simp) hr
    have h7 := (h6 ⟨e, he⟩).1
    rw [h2] at h7
    simp only at h7
    rw [h2, h7, he] at h3
    exact h3
  unfold runSelection
  cases algo with
  | branchAndBound =>
    simp only
    cases ho : coinSelectBnb luck.sort luck.rounds s with
    | none => exact absurd ho (C47_no_panic s luck.sort hs luck.rounds)
    | some o =>
    cases o with
    | none => obtain ⟨r, h1, h2⟩ := until_; exact ⟨r, h1, fun _ => h2⟩
    | some s' =>
      have ho' := C47_valid s s' luck.sort hs luck.rounds ho
      obtain ⟨r, hrr⟩ : ∃ r, s'.finish = some r := by
        by_cases hsuf : CoinSelect.Spec.required s'.opts s'.candidates s'.selected ≤ CoinSelect.Spec.value s'.candidates s'.selected
        · obtain ⟨sel, h⟩ := C45_sufficient s' v (by rw [ho'.1]; exact hv) hsuf; exact ⟨_, h⟩
        · obtain ⟨e, h⟩ := C45_insufficient s' (not_le.1 hsuf); exact ⟨_, h⟩
      refine ⟨r, hrr, ?_⟩
      intro hw e he
      obtain ⟨sel, hsel⟩ := C47_finishes_exact s s' luck.sort hs luck.rounds v hv 1 1 (by rw [hr]; norm_num) (by norm_num)
        (by rw [h0]; simp) hw (by omega) ho
      rw [hsel] at hrr
      rw [he] at hrr
      cases hrr
  | _ => obtain ⟨r, h1, h2⟩ := until_; exact ⟨r, h1, fun _ => h2⟩

end Verif.Cli
