import Verif.Lemmas.Plan4

/-! # Lemmas on spending plans: leaf choice, completion, weight -/

namespace Verif.Planner
open Verif.Tapscript Spec
open CoinSelect (varintSize)

variable {Key Ak : Type}

theorem smallest_cons (x : Ms Key × TermPlan Key Ak) (xs : List (Ms Key × TermPlan Key Ak)) :
    smallest (x :: xs) = match smallest xs with
      | none => some x
      | some y => if x.2.expectedSize ≤ y.2.expectedSize then some x else some y := by
  unfold smallest
  simp only [List.insertionSort_cons]
  cases h : List.insertionSort (fun a b : Ms Key × TermPlan Key Ak => a.2.expectedSize ≤ b.2.expectedSize) xs with
  | nil => simp
  | cons y ys =>
    simp only [List.orderedInsert_cons, List.head?_cons]
    split <;> simp

theorem smallest_none {xs : List (Ms Key × TermPlan Key Ak)} : smallest xs = none ↔ xs = [] := by
  cases xs with
  | nil => simp [smallest]
  | cons x xs =>
    rw [smallest_cons]
    cases smallest xs with
    | none => simp
    | some y => simp only [reduceCtorEq, iff_false]; split <;> simp

theorem smallest_spec {xs : List (Ms Key × TermPlan Key Ak)} {x : Ms Key × TermPlan Key Ak}
    (h : smallest xs = some x) :
    ∃ pre post, xs = pre ++ x :: post ∧ (∀ y ∈ pre, x.2.expectedSize < y.2.expectedSize) ∧
      ∀ y ∈ post, x.2.expectedSize ≤ y.2.expectedSize := by
  induction xs generalizing x with
  | nil => simp [smallest] at h
  | cons a as ih =>
    rw [smallest_cons] at h
    cases hs : smallest as with
    | none =>
      rw [hs] at h
      have h := Option.some.inj h
      subst h
      rw [smallest_none.1 hs]
      exact ⟨[], [], rfl, by simp, by simp⟩
    | some y =>
      rw [hs] at h
      obtain ⟨pre, post, e, h1, h2⟩ := ih hs
      simp only at h
      by_cases hle : a.2.expectedSize ≤ y.2.expectedSize
      · rw [if_pos hle] at h
        have h := Option.some.inj h
        subst h
        refine ⟨[], as, rfl, by simp, ?_⟩
        intro z hz
        rw [e] at hz
        rcases List.mem_append.1 hz with hz | hz
        · exact le_trans hle (le_of_lt (h1 z hz))
        · rcases List.mem_cons.1 hz with hz | hz
          · rw [hz]; exact hle
          · exact le_trans hle (h2 z hz)
      · rw [if_neg hle] at h
        have h := Option.some.inj h
        subst h
        refine ⟨a :: pre, post, by rw [e]; rfl, ?_, h2⟩
        intro z hz
        rcases List.mem_cons.1 hz with hz | hz
        · rw [hz]; omega
        · exact h1 z hz

/-- the plan of one leaf, `none` also for a panic -/
def leafPlan (cd : Ak → Key → Option Path) (a : Assets Ak) (l : Nat × Ms Key) : Option (Ms Key × TermPlan Key Ak) :=
  match planSteps cd a l.2 with
  | .ret (some p) => some (l.2, p)
  | _ => none

theorem leafPlans_eq {cd : Ak → Key → Option Path} {a : Assets Ak} {ls : List (Nat × Ms Key)}
    {ps : List (Ms Key × TermPlan Key Ak)} (h : leafPlans cd a ls = .ret ps) :
    ps = ls.filterMap (leafPlan cd a) ∧ ∀ l ∈ ls, planSteps cd a l.2 ≠ .panic := by
  induction ls generalizing ps with
  | nil => simp [leafPlans] at h; simp [← h]
  | cons l ls ih =>
    obtain ⟨d, ms⟩ := l
    simp only [leafPlans] at h
    cases hp : planSteps cd a ms with
    | panic => rw [hp] at h; cases h
    | ret o =>
      rw [hp] at h
      cases hr : leafPlans cd a ls with
      | panic => rw [hr] at h; cases h
      | ret qs =>
        rw [hr] at h
        obtain ⟨e, hn⟩ := ih hr
        cases o with
        | none =>
          simp at h
          subst h
          refine ⟨?_, ?_⟩
          · rw [List.filterMap_cons]; simp [leafPlan, hp]; exact e
          · intro l hl
            rcases List.mem_cons.1 hl with rfl | hl
            · rw [hp]; simp
            · exact hn l hl
        | some p =>
          simp at h
          subst h
          refine ⟨?_, ?_⟩
          · rw [List.filterMap_cons]; simp [leafPlan, hp]; exact e
          · intro l hl
            rcases List.mem_cons.1 hl with rfl | hl
            · rw [hp]; simp
            · exact hn l hl

theorem leafPlans_ret {cd : Ak → Key → Option Path} {a : Assets Ak} {ls : List (Nat × Ms Key)}
    (h : ∀ l ∈ ls, planSteps cd a l.2 ≠ .panic) : ∃ ps, leafPlans cd a ls = .ret ps := by
  induction ls with
  | nil => exact ⟨_, rfl⟩
  | cons l ls ih =>
    obtain ⟨d, ms⟩ := l
    obtain ⟨ps, hps⟩ := ih (fun l hl => h l (List.mem_cons_of_mem _ hl))
    simp only [leafPlans]
    cases hp : planSteps cd a ms with
    | panic => exact absurd hp (h _ List.mem_cons_self)
    | ret o =>
      cases o with
      | none => exact ⟨ps, by rw [hps]⟩
      | some p => exact ⟨_, by rw [hps]⟩

theorem leafPlan_eq {cd : Ak → Key → Option Path} {a : Assets Ak} {l : Nat × Ms Key} {x : Ms Key × TermPlan Key Ak}
    (h : leafPlan cd a l = some x) : l.2 = x.1 ∧ planSteps cd a l.2 = .ret (some x.2) := by
  unfold leafPlan at h
  split at h
  · rename_i p hp
    have h := Option.some.inj h
    subst h
    exact ⟨rfl, hp⟩
  · cases h

/-- the cases of a returned plan -/
theorem planTr_cases {lib : Lib Key} {cd : Ak → Key → Option Path} {tr : Tr Key} {a : Assets Ak} {p : Plan Key Ak}
    (h : planTr lib cd tr a = .ret (some p)) :
    (∃ pk, findKey cd a.keys tr.internalKey = some pk ∧ p = ⟨[.sign pk], tr, .keySpend, none, none⟩) ∨
    (findKey cd a.keys tr.internalKey = none ∧ ∃ before d ms after tp, tr.leaves = before ++ (d, ms) :: after ∧
      planSteps cd a ms = .ret (some tp) ∧
      p = ⟨tp.template, tr, .leafSpend (lib.encode ms), tp.minLocktime, tp.minSequence⟩ ∧
      (∀ l ∈ before, ∀ q, planSteps cd a l.2 = .ret (some q) → tp.expectedSize < q.expectedSize) ∧
      (∀ l ∈ after, ∀ q, planSteps cd a l.2 = .ret (some q) → tp.expectedSize ≤ q.expectedSize)) := by
  unfold planTr at h
  cases hk : findKey cd a.keys tr.internalKey with
  | some pk =>
    rw [hk] at h
    simp at h
    exact .inl ⟨pk, rfl, h.symm⟩
  | none =>
    rw [hk] at h
    right
    refine ⟨rfl, ?_⟩
    cases hl : leafPlans cd a tr.leaves with
    | panic => rw [hl] at h; cases h
    | ret ps =>
      rw [hl] at h
      simp only at h
      cases hs : smallest ps with
      | none => rw [hs] at h; simp at h
      | some x =>
        obtain ⟨ms, tp⟩ := x
        rw [hs] at h
        simp at h
        obtain ⟨pre, post, e, h1, h2⟩ := smallest_spec hs
        rw [(leafPlans_eq hl).1] at e
        obtain ⟨l1, l2, e1, e2, e3⟩ := List.filterMap_eq_append_iff.1 e
        obtain ⟨m1, y, m2, e4, e5, e6, e7⟩ := List.filterMap_eq_cons_iff.1 e3
        obtain ⟨d, ms'⟩ := y
        obtain ⟨e8, e9⟩ := leafPlan_eq e6
        simp only at e8 e9
        subst e8
        refine ⟨l1 ++ m1, d, ms', m2, tp, by rw [e1, e4, List.append_assoc], e9, h.symm, ?_, ?_⟩
        · intro l hl q hq
          rcases List.mem_append.1 hl with hl | hl
          · have : (l.2, q) ∈ pre := by
              rw [← e2]
              exact List.mem_filterMap.2 ⟨l, hl, by simp [leafPlan, hq]⟩
            exact h1 _ this
          · have := e5 l hl
            simp [leafPlan, hq] at this
        · intro l hl q hq
          have : (l.2, q) ∈ post := by
            rw [← e7]
            exact List.mem_filterMap.2 ⟨l, hl, by simp [leafPlan, hq]⟩
          exact h2 _ this

theorem planTr_none_iff {lib : Lib Key} {cd : Ak → Key → Option Path} {tr : Tr Key} {a : Assets Ak} :
    planTr lib cd tr a = .ret none ↔ findKey cd a.keys tr.internalKey = none ∧
      ∀ l ∈ tr.leaves, planSteps cd a l.2 = .ret none := by
  unfold planTr
  cases hk : findKey cd a.keys tr.internalKey with
  | some pk => simp
  | none =>
    simp only [true_and]
    constructor
    · intro h l hl'
      cases hl : leafPlans cd a tr.leaves with
      | panic => rw [hl] at h; cases h
      | ret ps =>
        rw [hl] at h
        simp only at h
        obtain ⟨e, hn⟩ := leafPlans_eq hl
        cases hs : smallest ps with
        | some x => rw [hs] at h; simp at h
        | none =>
          have hnil := smallest_none.1 hs
          cases hp : planSteps cd a l.2 with
          | panic => exact absurd hp (hn l hl')
          | ret o =>
            cases o with
            | none => rfl
            | some q =>
              have : (l.2, q) ∈ ps := by
                rw [e]
                exact List.mem_filterMap.2 ⟨l, hl', by simp [leafPlan, hp]⟩
              rw [hnil] at this
              simp at this
    · intro h
      obtain ⟨ps, hps⟩ := leafPlans_ret (cd := cd) (a := a) (ls := tr.leaves) (fun l hl => by rw [h l hl]; simp)
      rw [hps]
      have e := (leafPlans_eq hps).1
      have : ps = [] := by
        rw [e, List.filterMap_eq_nil_iff]
        intro l hl
        simp [leafPlan, h l hl]
      subst this
      rfl

/-! ### completion -/

theorem witnessOf_isSome {lib : Lib Key} {m : Material Key} {l : List (TemplateItem Key Ak)}
    (h : l.filter (TemplateItem.unsatisfied m) = []) : ∃ w, Plan.witnessOf lib m l = some w := by
  induction l with
  | nil => exact ⟨_, rfl⟩
  | cons i is ih =>
    rw [List.filter_eq_nil_iff] at h
    obtain ⟨w, hw⟩ := ih (List.filter_eq_nil_iff.2 fun x hx => h x (List.mem_cons_of_mem _ hx))
    have hi := h i List.mem_cons_self
    have : ∃ x, i.toWitness lib m = some x := by
      cases i <;> simp [TemplateItem.unsatisfied, TemplateItem.toWitness] at hi ⊢
      all_goals exact Option.isSome_iff_exists.1 (Option.isSome_iff_ne_none.2 hi)
    obtain ⟨x, hx⟩ := this
    exact ⟨x :: w, by simp [Plan.witnessOf, hx, hw]⟩

/-- the keys to sign with, in the order of the items -/
def signKey : TemplateItem Key Ak → Option (PlanKey Key Ak)
  | .sign k => some k
  | _ => none

theorem foldl_addRequirement (l : List (TemplateItem Key Ak)) (acc : Requirements Key Ak × List (PlanKey Key Ak)) :
    (l.foldl addRequirement acc).2 = acc.2 ++ l.filterMap signKey ∧
    (∀ h, h ∈ (l.foldl addRequirement acc).1.sha256 ↔ h ∈ acc.1.sha256 ∨ .sha256 h ∈ l) ∧
    (∀ h, h ∈ (l.foldl addRequirement acc).1.hash160 ↔ h ∈ acc.1.hash160 ∨ .hash160 h ∈ l) ∧
    (∀ h, h ∈ (l.foldl addRequirement acc).1.hash256 ↔ h ∈ acc.1.hash256 ∨ .hash256 h ∈ l) ∧
    (∀ h, h ∈ (l.foldl addRequirement acc).1.ripemd160 ↔ h ∈ acc.1.ripemd160 ∨ .ripemd160 h ∈ l) := by
  induction l generalizing acc with
  | nil => simp
  | cons i is ih =>
    rw [List.foldl_cons]
    obtain ⟨h1, h2, h3, h4, h5⟩ := ih (addRequirement acc i)
    rw [h1]
    refine ⟨?_, ?_, ?_, ?_, ?_⟩
    · cases i <;> simp [addRequirement, signKey, List.filterMap_cons]
    · intro h; rw [h2]; cases i <;> simp [addRequirement, or_assoc, or_left_comm]
    · intro h; rw [h3]; cases i <;> simp [addRequirement, or_assoc, or_left_comm]
    · intro h; rw [h4]; cases i <;> simp [addRequirement, or_assoc, or_left_comm]
    · intro h; rw [h5]; cases i <;> simp [addRequirement, or_assoc, or_left_comm]

/-! ### weight -/

/-- by how much a finished item is longer than expected -/
def excess (m : Material Key) : TemplateItem Key Ak → Nat
  | .pk _ => 1
  | .sign k => match m.schnorrSigs k.descriptorKey with
    | some s => if s.hashTy = 0 then 0 else 1
    | none => 0
  | _ => 0

theorem witness_sizes {lib : Lib Key} (hpk : ∀ k, (lib.pubkeyBytes k).length = 33) {m : Material Key}
    (hsig : ∀ k s, m.schnorrSigs k = some s → s.sig.length = 64)
    (h1 : ∀ h x, m.sha256 h = some x → x.length = 32) (h2 : ∀ h x, m.hash160 h = some x → x.length = 32)
    (h3 : ∀ h x, m.hash256 h = some x → x.length = 32) (h4 : ∀ h x, m.ripemd160 h = some x → x.length = 32)
    {l : List (TemplateItem Key Ak)} {w : List Bytes} (hw : Plan.witnessOf lib m l = some w) :
    (w.map fun e => varintSize e.length + e.length).sum
      = ((l.map TemplateItem.expectedSize).map fun e => varintSize e + e).sum + (l.map (excess m)).sum := by
  induction l generalizing w with
  | nil => simp [Plan.witnessOf] at hw; simp [hw]
  | cons i is ih =>
    simp only [Plan.witnessOf] at hw
    cases hi : i.toWitness lib m with
    | none => rw [hi] at hw; simp at hw
    | some x =>
      rw [hi] at hw
      simp only [Option.map_eq_some_iff] at hw
      obtain ⟨w', hw', e⟩ := hw
      subst e
      have hx : varintSize x.length + x.length
          = varintSize i.expectedSize + i.expectedSize + excess m i := by
        cases i with
        | sign k =>
          simp only [TemplateItem.toWitness, Option.map_eq_some_iff] at hi
          obtain ⟨s, hs, e⟩ := hi
          subst e
          have := hsig _ _ hs
          simp only [excess, hs, TemplateItem.expectedSize, SchnorrSig.toVec]
          split <;> simp [this, varintSize]
        | pk k =>
          simp only [TemplateItem.toWitness] at hi
          have := Option.some.inj hi
          subst this
          simp [hpk, TemplateItem.expectedSize, excess, varintSize]
        | one =>
          simp only [TemplateItem.toWitness] at hi
          have := Option.some.inj hi
          subst this
          simp [TemplateItem.expectedSize, excess, varintSize]
        | zero =>
          simp only [TemplateItem.toWitness] at hi
          have := Option.some.inj hi
          subst this
          simp [TemplateItem.expectedSize, excess, varintSize]
        | sha256 h => simp [h1 _ _ hi, TemplateItem.expectedSize, excess]
        | hash256 h => simp [h3 _ _ hi, TemplateItem.expectedSize, excess]
        | ripemd160 h => simp [h4 _ _ hi, TemplateItem.expectedSize, excess]
        | hash160 h => simp [h2 _ _ hi, TemplateItem.expectedSize, excess]
      simp only [List.map_cons, List.sum_cons]
      rw [ih hw', hx]
      omega

end Verif.Planner
