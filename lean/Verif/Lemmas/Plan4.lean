import Verif.Lemmas.Plan3

/-! # Lemmas on spending plans: when there is a plan, which leaf, what is required, how much it weighs -/

namespace Verif.Planner
open Verif.Tapscript Spec

variable {Key Ak : Type}

theorem findKey_isSome (cd : Ak → Key → Option Path) (keys : List Ak) (k : Key) :
    (findKey cd keys k).isSome ↔ ∃ ak ∈ keys, (cd ak k).isSome := by
  unfold findKey
  rw [List.findSome?_isSome_iff]
  simp

theorem findKey_spec {cd : Ak → Key → Option Path} {keys : List Ak} {k : Key} {pk : PlanKey Key Ak}
    (h : findKey cd keys k = some pk) :
    pk.descriptorKey = k ∧ pk.assetKey ∈ keys ∧ cd pk.assetKey k = some pk.derivationHint := by
  unfold findKey at h
  obtain ⟨ak, hm, h⟩ := List.exists_of_findSome?_eq_some h
  simp at h
  obtain ⟨hint, h1, e⟩ := h
  subst e
  exact ⟨rfl, hm, h1⟩

theorem combineLocktime_mem {l r p : Option LockTime} (h : TermPlan.combineLocktime l r = some p) {x : LockTime}
    (hx : p = some x) : l = some x ∨ r = some x := by
  subst hx
  cases l with
  | none => simp [TermPlan.combineLocktime] at h; exact .inr h
  | some l =>
    cases r with
    | none => simp [TermPlan.combineLocktime] at h; exact .inl (by rw [h])
    | some r =>
      simp only [TermPlan.combineLocktime] at h
      split at h
      · have h := Option.some.inj (Option.some.inj h)
        split at h <;> simp [h]
      · cases h

/-- the absolute lock time of a plan is one that occurs in the expression -/
theorem minLocktime_afters {cd : Ak → Key → Option Path} {a : Assets Ak} {P : Nat → Prop} {ms : Ms Key}
    (hn : Afters P ms) {p : TermPlan Key Ak} (h : planSteps cd a ms = .ret (some p)) :
    ∀ x, p.minLocktime = some x → ∃ n, x = .ofConsensus n ∧ P n := by
  induction ms generalizing p with
  | tru => simp [planSteps] at h; simp [← h]
  | older n => simp [planSteps] at h; simp [(planOlder_inv h).2]
  | after n =>
    simp [planSteps] at h
    intro x hx
    rw [(planAfter_inv h).2] at hx
    have := Option.some.inj hx
    subst this
    exact ⟨n, rfl, hn⟩
  | alt x ih | swap x ih | check x ih | verify x ih | nonZero x ih | zeroNotEqual x ih =>
    simp only [planSteps] at h
    exact ih hn h
  | dupIf x ih =>
    obtain ⟨q, hq, e⟩ := dupIf_inv h
    subst e
    exact fun s hs => ih hn hq s hs
  | andV x y ihx ihy =>
    rw [andV_eq_andB] at h
    obtain ⟨l, r, h1, h2, h3⟩ := andB_inv h
    intro s hs
    rcases combineLocktime_mem (combine_eq h3).1 hs with e | e
    · exact ihx hn.1 h1 s e
    · exact ihy hn.2 h2 s e
  | andB x y ihx ihy =>
    obtain ⟨l, r, h1, h2, h3⟩ := andB_inv h
    intro s hs
    rcases combineLocktime_mem (combine_eq h3).1 hs with e | e
    · exact ihx hn.1 h1 s e
    · exact ihy hn.2 h2 s e
  | orI x y ihx ihy =>
    rcases orI_inv h with ⟨q, hq, e⟩ | ⟨q, hq, e⟩
    · subst e; exact fun s hs => ihx hn.1 hq s hs
    · subst e; exact fun s hs => ihy hn.2 hq s hs
  | pkK k =>
    simp [planSteps] at h
    obtain ⟨_, _, e⟩ := h
    simp [← e]
  | pkH k =>
    simp [planSteps] at h
    obtain ⟨_, _, e⟩ := h
    simp [← e]
  | sha256 k | hash256 k | ripemd160 k | hash160 k =>
    simp [planSteps] at h
    simp [← h.2]
  | _ => simp [planSteps] at h

/-- the relative lock time of a plan is in the unit of the coin's age and not above it -/
theorem minSequence_age {cd : Ak → Key → Option Path} {a : Assets Ak} {ms : Ms Key} {p : TermPlan Key Ak}
    (h : planSteps cd a ms = .ret (some p)) :
    ∀ x, p.minSequence = some x → ∃ age, a.txoAge = some age ∧ isHeightLocked age = isHeightLocked x ∧ x ≤ age := by
  induction ms generalizing p with
  | tru => simp [planSteps] at h; simp [← h]
  | after n => simp [planSteps] at h; simp [(planAfter_inv h).2]
  | older n =>
    simp [planSteps] at h
    obtain ⟨⟨m, h1, h2, h3⟩, e⟩ := planOlder_inv h
    intro x hx
    rw [e] at hx
    have := Option.some.inj hx
    subst this
    exact ⟨m, h1, h2, h3⟩
  | alt x ih | swap x ih | check x ih | verify x ih | nonZero x ih | zeroNotEqual x ih =>
    simp only [planSteps] at h
    exact ih h
  | dupIf x ih =>
    obtain ⟨q, hq, e⟩ := dupIf_inv h
    subst e
    exact fun s hs => ih hq s hs
  | andV x y ihx ihy =>
    rw [andV_eq_andB] at h
    obtain ⟨l, r, h1, h2, h3⟩ := andB_inv h
    intro s hs
    rcases combineSequence_mem (combine_eq h3).2.1 hs with e | e
    · exact ihx h1 s e
    · exact ihy h2 s e
  | andB x y ihx ihy =>
    obtain ⟨l, r, h1, h2, h3⟩ := andB_inv h
    intro s hs
    rcases combineSequence_mem (combine_eq h3).2.1 hs with e | e
    · exact ihx h1 s e
    · exact ihy h2 s e
  | orI x y ihx ihy =>
    rcases orI_inv h with ⟨q, hq, e⟩ | ⟨q, hq, e⟩
    · subst e; exact fun s hs => ihx hq s hs
    · subst e; exact fun s hs => ihy hq s hs
  | pkK k =>
    simp [planSteps] at h
    obtain ⟨_, _, e⟩ := h
    simp [← e]
  | pkH k =>
    simp [planSteps] at h
    obtain ⟨_, _, e⟩ := h
    simp [← e]
  | sha256 k | hash256 k | ripemd160 k | hash160 k =>
    simp [planSteps] at h
    simp [← h.2]
  | _ => simp [planSteps] at h

theorem seqMeets_clean {age s : Nat} (ha : CleanSeq age) (hs : CleanSeq s) :
    seqMeets age s = true ↔ isHeightLocked age = isHeightLocked s ∧ s ≤ age := by
  rw [isHeightLocked_clean ha, isHeightLocked_clean hs, decide_eq_decide]
  unfold seqMeets
  simp only [Bool.and_eq_true, decide_eq_true_eq]
  have h1 : seqMasked age = age := ha.symm
  have h2 : seqMasked s = s := hs.symm
  rw [h1, h2, (clean_bits ha).1]
  constructor
  · rintro ⟨⟨_, h⟩, h'⟩; exact ⟨by omega, h'⟩
  · rintro ⟨h, h'⟩; exact ⟨⟨rfl, by omega⟩, h'⟩

theorem combine_isSome {l r : TermPlan Key Ak}
    (h1 : ∀ x y, l.minLocktime = some x → r.minLocktime = some y → x.sameUnit y = true)
    (h2 : ∀ x y, l.minSequence = some x → r.minSequence = some y → isHeightLocked x = isHeightLocked y) :
    ∃ p, l.combine r = some p := by
  have a1 : ∃ lt, TermPlan.combineLocktime l.minLocktime r.minLocktime = some lt := by
    cases hl : l.minLocktime with
    | none => exact ⟨_, rfl⟩
    | some x =>
      cases hr : r.minLocktime with
      | none => exact ⟨_, rfl⟩
      | some y => simp [TermPlan.combineLocktime, h1 x y hl hr]
  have a2 : ∃ sq, TermPlan.combineSequence l.minSequence r.minSequence = some sq := by
    cases hl : l.minSequence with
    | none => exact ⟨_, rfl⟩
    | some x =>
      cases hr : r.minSequence with
      | none => exact ⟨_, rfl⟩
      | some y => simp [TermPlan.combineSequence, h2 x y hl hr]
  obtain ⟨lt, e1⟩ := a1
  obtain ⟨sq, e2⟩ := a2
  unfold TermPlan.combine
  rw [e1, e2]
  exact ⟨_, rfl⟩

theorem sameUnit_trans {m x y : LockTime} (h1 : m.sameUnit x = true) (h2 : m.sameUnit y = true) : x.sameUnit y = true := by
  revert h1 h2
  cases m <;> cases x <;> cases y <;> simp [LockTime.sameUnit]

/-- the absolute lock times of the expression are all within what the assets allow (or the assets allow none) -/
def AftersAllowed (a : Assets Ak) (ms : Ms Key) : Prop :=
  ∀ m, a.maxLocktime = some m → Afters (fun n => m.sameUnit (.ofConsensus n) = true ∧ n ≤ m.toConsensus) ms

theorem after_minLocktime_some {cd : Ak → Key → Option Path} {a : Assets Ak} {ms : Ms Key} {p : TermPlan Key Ak}
    (h : planSteps cd a ms = .ret (some p)) {x : LockTime} (hx : p.minLocktime = some x) :
    a.maxLocktime.isSome := by
  induction ms generalizing p with
  | tru => simp [planSteps] at h; simp [← h] at hx
  | older n => simp [planSteps] at h; simp [(planOlder_inv h).2] at hx
  | after n =>
    simp [planSteps] at h
    exact (planAfter_inv h).1
  | alt x ih | swap x ih | check x ih | verify x ih | nonZero x ih | zeroNotEqual x ih =>
    simp only [planSteps] at h
    exact ih h hx
  | dupIf x ih =>
    obtain ⟨q, hq, e⟩ := dupIf_inv h
    subst e
    exact ih hq hx
  | andV x y ihx ihy =>
    rw [andV_eq_andB] at h
    obtain ⟨l, r, h1, h2, h3⟩ := andB_inv h
    rcases combineLocktime_mem (combine_eq h3).1 hx with e | e
    · exact ihx h1 e
    · exact ihy h2 e
  | andB x y ihx ihy =>
    obtain ⟨l, r, h1, h2, h3⟩ := andB_inv h
    rcases combineLocktime_mem (combine_eq h3).1 hx with e | e
    · exact ihx h1 e
    · exact ihy h2 e
  | orI x y ihx ihy =>
    rcases orI_inv h with ⟨q, hq, e⟩ | ⟨q, hq, e⟩
    · subst e; exact ihx hq hx
    · subst e; exact ihy hq hx
  | pkK k =>
    simp [planSteps] at h
    obtain ⟨_, _, e⟩ := h
    simp [← e] at hx
  | pkH k =>
    simp [planSteps] at h
    obtain ⟨_, _, e⟩ := h
    simp [← e] at hx
  | sha256 k | hash256 k | ripemd160 k | hash160 k =>
    simp [planSteps] at h
    simp [← h.2] at hx
  | _ => simp [planSteps] at h

theorem plan_locktime_unit {cd : Ak → Key → Option Path} {a : Assets Ak} {ms : Ms Key} (ha : AftersAllowed a ms)
    {p : TermPlan Key Ak} (h : planSteps cd a ms = .ret (some p)) {x : LockTime} (hx : p.minLocktime = some x) :
    ∃ m, a.maxLocktime = some m ∧ m.sameUnit x = true ∧ x.toConsensus ≤ m.toConsensus := by
  obtain ⟨m, hm⟩ := Option.isSome_iff_exists.1 (after_minLocktime_some h hx)
  obtain ⟨n, e, h1, h2⟩ := minLocktime_afters (ha m hm) h x hx
  subst e
  exact ⟨m, hm, h1, by rw [LockTime.toConsensus_of]; exact h2⟩

theorem and_iff {cd : Ak → Key → Option Path} {a : Assets Ak} {x y : Ms Key}
    (hax : AftersAllowed a x) (hay : AftersAllowed a y)
    {Ax Ay : Prop} (hx : ∃ o, planSteps cd a x = .ret o ∧ (o.isSome ↔ Ax))
    (hy : ∃ o, planSteps cd a y = .ret o ∧ (o.isSome ↔ Ay)) :
    ∃ o, planSteps cd a (.andB x y) = .ret o ∧ (o.isSome ↔ Ax ∧ Ay) := by
  obtain ⟨ox, ex, ix⟩ := hx
  obtain ⟨oy, ey, iy⟩ := hy
  simp only [planSteps, ex, ey]
  cases ox with
  | none => exact ⟨none, rfl, by simp at ix; simp [ix]⟩
  | some l =>
    cases oy with
    | none => exact ⟨none, rfl, by simp at iy; simp [iy]⟩
    | some r =>
      obtain ⟨p, hp⟩ : ∃ p, l.combine r = some p := by
        apply combine_isSome
        · intro u v hu hv
          obtain ⟨m, hm, h1, _⟩ := plan_locktime_unit hax ex hu
          obtain ⟨m', hm', h2, _⟩ := plan_locktime_unit hay ey hv
          rw [hm] at hm'
          have := Option.some.inj hm'
          subst this
          exact sameUnit_trans h1 h2
        · intro u v hu hv
          obtain ⟨g, hg, h1, _⟩ := minSequence_age ex u hu
          obtain ⟨g', hg', h2, _⟩ := minSequence_age ey v hv
          rw [hg] at hg'
          have := Option.some.inj hg'
          subst this
          rw [← h1, h2]
      refine ⟨some p, congrArg Out.ret hp, ?_⟩
      simp at ix iy
      simp [ix, iy]

theorem plan_iff (cd : Ak → Key → Option Path) (a : Assets Ak) (ms : Ms Key) (hs : Supported ms)
    (hol : Olders CleanSeq ms) (hage : ∀ age, a.txoAge = some age → CleanSeq age) (ha : AftersAllowed a ms) :
    ∃ o, planSteps cd a ms = .ret o ∧ (o.isSome ↔ Affordable cd a ms) := by
  induction ms with
  | tru => exact ⟨_, rfl, by simp [Affordable]⟩
  | fls => exact ⟨_, rfl, by simp [Affordable]⟩
  | rawPkH h => exact ⟨_, rfl, by simp [Affordable]⟩
  | pkK k => exact ⟨_, rfl, by simp only [Option.isSome_map, findKey_isSome, Affordable]⟩
  | pkH k => exact ⟨_, rfl, by simp only [Option.isSome_map, findKey_isSome, Affordable]⟩
  | sha256 h | hash256 h | ripemd160 h | hash160 h =>
    refine ⟨_, rfl, ?_⟩
    simp only [Affordable]
    split <;> simp_all
  | after n =>
    refine ⟨_, rfl, ?_⟩
    simp only [Affordable]
    cases hm : a.maxLocktime with
    | none => simp [planAfter]
    | some m =>
      rw [planAfter_eq]
      have := ha m hm
      simp only [Afters] at this
      simp [this]
  | older s =>
    refine ⟨_, rfl, ?_⟩
    simp only [Affordable]
    cases hm : a.txoAge with
    | none => simp [planOlder]
    | some age =>
      have h1 := seqMeets_clean (hage age hm) hol
      simp only [planOlder, Option.some.injEq, exists_eq_left']
      rw [h1]
      by_cases e1 : isHeightLocked age = isHeightLocked s
      · by_cases e2 : age ≥ s
        · rw [if_pos e1, if_pos e2]; simp [e1]; exact e2
        · rw [if_pos e1, if_neg e2]; simp [e1]; exact Nat.lt_of_not_le e2
      · rw [if_neg e1]; simp [e1]
  | alt x ih | swap x ih | check x ih | verify x ih | nonZero x ih | zeroNotEqual x ih =>
    exact ih hs hol ha
  | dupIf x ih =>
    obtain ⟨o, e, h⟩ := ih hs hol ha
    simp only [planSteps, e, Affordable]
    exact ⟨_, rfl, by simp [h]⟩
  | andV x y ihx ihy =>
    rw [andV_eq_andB]
    exact and_iff (fun m hm => (ha m hm).1) (fun m hm => (ha m hm).2)
      (ihx hs.1 hol.1 (fun m hm => (ha m hm).1)) (ihy hs.2 hol.2 (fun m hm => (ha m hm).2))
  | andB x y ihx ihy =>
    exact and_iff (fun m hm => (ha m hm).1) (fun m hm => (ha m hm).2)
      (ihx hs.1 hol.1 (fun m hm => (ha m hm).1)) (ihy hs.2 hol.2 (fun m hm => (ha m hm).2))
  | orI x y ihx ihy =>
    obtain ⟨ox, ex, ix⟩ := ihx hs.1 hol.1 (fun m hm => (ha m hm).1)
    obtain ⟨oy, ey, iy⟩ := ihy hs.2 hol.2 (fun m hm => (ha m hm).2)
    simp only [planSteps, ex, ey, Affordable]
    refine ⟨_, rfl, ?_⟩
    rw [← ix, ← iy]
    cases ox <;> cases oy <;> simp [pickSmaller]
    split <;> simp
  | _ => simp [Supported] at hs

end Verif.Planner
