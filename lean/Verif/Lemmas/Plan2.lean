import Verif.Lemmas.Plan

/-! # Lemmas on spending plans: every supported, well-typed fragment -/

namespace Verif.Planner
open Verif.Tapscript Spec

variable {Key Ak : Type}

theorem dupIf_inv {cd : Ak → Key → Option Path} {a : Assets Ak} {x : Ms Key} {p : TermPlan Key Ak}
    (h : planSteps cd a (.dupIf x) = .ret (some p)) :
    ∃ q, planSteps cd a x = .ret (some q) ∧ p = q.push .one := by
  simp only [planSteps] at h
  cases hx : planSteps cd a x with
  | panic => rw [hx] at h; cases h
  | ret o =>
    rw [hx] at h
    cases o with
    | none => simp at h
    | some q => exact ⟨q, rfl, by simpa using h.symm⟩

theorem andV_eq_andB (cd : Ak → Key → Option Path) (a : Assets Ak) (x y : Ms Key) :
    planSteps cd a (.andV x y) = planSteps cd a (.andB x y) := by
  simp only [planSteps]

theorem andB_inv {cd : Ak → Key → Option Path} {a : Assets Ak} {x y : Ms Key} {p : TermPlan Key Ak}
    (h : planSteps cd a (.andB x y) = .ret (some p)) :
    ∃ l r, planSteps cd a x = .ret (some l) ∧ planSteps cd a y = .ret (some r) ∧ l.combine r = some p := by
  simp only [planSteps] at h
  cases hx : planSteps cd a x with
  | panic => rw [hx] at h; cases h
  | ret o =>
    rw [hx] at h
    cases o with
    | none => simp at h
    | some l =>
      cases hy : planSteps cd a y with
      | panic => rw [hy] at h; cases h
      | ret o =>
        rw [hy] at h
        cases o with
        | none => simp at h
        | some r => exact ⟨l, r, rfl, rfl, by simpa using h⟩

theorem pickSmaller_cases {l r p : Option (TermPlan Key Ak)} (h : pickSmaller l r = p) : p = l ∨ p = r := by
  subst h
  cases l with
  | none => right; simp [pickSmaller]
  | some l =>
    cases r with
    | none => left; rfl
    | some r =>
      simp only [pickSmaller]
      split <;> simp

theorem orI_inv {cd : Ak → Key → Option Path} {a : Assets Ak} {x y : Ms Key} {p : TermPlan Key Ak}
    (h : planSteps cd a (.orI x y) = .ret (some p)) :
    (∃ q, planSteps cd a x = .ret (some q) ∧ p = q.push .one) ∨
    (∃ q, planSteps cd a y = .ret (some q) ∧ p = q.push .zero) := by
  simp only [planSteps] at h
  cases hx : planSteps cd a x with
  | panic => rw [hx] at h; cases h
  | ret l =>
    rw [hx] at h
    cases hy : planSteps cd a y with
    | panic => rw [hy] at h; cases h
    | ret r =>
      rw [hy] at h
      have h' : pickSmaller (l.map (·.push .one)) (r.map (·.push .zero)) = some p := by simpa using h
      rcases pickSmaller_cases h' with e | e
      · left
        cases l with
        | none => simp at e
        | some q => exact ⟨q, rfl, by simpa using e⟩
      · right
        cases r with
        | none => simp at e
        | some q => exact ⟨q, rfl, by simpa using e⟩

theorem planAfter_eq (m : LockTime) (n : Nat) :
    (planAfter (some m) n : Option (TermPlan Key Ak)) = some { minLocktime := some (.ofConsensus n) } := by
  cases m <;> simp [planAfter, LockTime.isSatisfiedBy]

theorem planAfter_inv {ml : Option LockTime} {n : Nat} {p : TermPlan Key Ak} (h : planAfter ml n = some p) :
    ml.isSome ∧ p = { minLocktime := some (.ofConsensus n) } := by
  cases ml with
  | none => simp [planAfter] at h
  | some m =>
    rw [planAfter_eq] at h
    exact ⟨rfl, (Option.some.inj h).symm⟩

theorem planOlder_inv {ml : Option Sequence} {s : Sequence} {p : TermPlan Key Ak} (h : planOlder ml s = some p) :
    (∃ m, ml = some m ∧ isHeightLocked m = isHeightLocked s ∧ s ≤ m) ∧ p = { minSequence := some s } := by
  cases ml with
  | none => simp [planOlder] at h
  | some m =>
    simp only [planOlder] at h
    split at h
    · rename_i h1
      split at h
      · rename_i h2
        exact ⟨⟨m, rfl, h1, h2⟩, (Option.some.inj h).symm⟩
      · cases h
    · cases h

theorem template_noArgs {cd : Ak → Key → Option Path} {a : Assets Ak} {ms : Ms Key} (hn : NoArgs ms)
    {p : TermPlan Key Ak} (h : planSteps cd a ms = .ret (some p)) : p.template = [] := by
  induction ms generalizing p with
  | tru => simp [planSteps] at h; simp [← h]
  | after n => simp [planSteps] at h; simp [(planAfter_inv h).2]
  | older n => simp [planSteps] at h; simp [(planOlder_inv h).2]
  | alt x ih | swap x ih | check x ih | verify x ih | nonZero x ih | zeroNotEqual x ih =>
    simp only [planSteps] at h
    exact ih hn h
  | andV x y ihx ihy =>
    rw [andV_eq_andB] at h
    obtain ⟨l, r, h1, h2, h3⟩ := andB_inv h
    rw [(combine_eq h3).2.2, ihx hn.1 h1, ihy hn.2 h2]; rfl
  | andB x y ihx ihy =>
    obtain ⟨l, r, h1, h2, h3⟩ := andB_inv h
    rw [(combine_eq h3).2.2, ihx hn.1 h1, ihy hn.2 h2]; rfl
  | _ => simp [NoArgs] at hn

theorem combineSequence_mem {l r p : Option Sequence} (h : TermPlan.combineSequence l r = some p) {x : Sequence}
    (hx : p = some x) : l = some x ∨ r = some x := by
  subst hx
  cases l with
  | none => simp [TermPlan.combineSequence] at h; exact .inr h
  | some l =>
    cases r with
    | none => simp [TermPlan.combineSequence] at h; exact .inl (by rw [h])
    | some r =>
      simp only [TermPlan.combineSequence] at h
      split at h
      · have h := Option.some.inj (Option.some.inj h)
        split at h <;> simp [h]
      · cases h

/-- the relative lock time of a plan is one that occurs in the expression -/
theorem minSequence_olders {cd : Ak → Key → Option Path} {a : Assets Ak} {P : Nat → Prop} {ms : Ms Key}
    (hn : Olders P ms) {p : TermPlan Key Ak} (h : planSteps cd a ms = .ret (some p)) :
    ∀ x, p.minSequence = some x → P x := by
  induction ms generalizing p with
  | tru => simp [planSteps] at h; simp [← h]
  | after n => simp [planSteps] at h; simp [(planAfter_inv h).2]
  | older n =>
    simp [planSteps] at h
    intro x hx
    rw [(planOlder_inv h).2] at hx
    have := Option.some.inj hx
    subst this
    exact hn
  | alt x ih | swap x ih | check x ih | verify x ih | nonZero x ih | zeroNotEqual x ih =>
    simp only [planSteps] at h
    exact ih hn h
  | dupIf x ih =>
    obtain ⟨q, hq, e⟩ := dupIf_inv h
    subst e
    exact fun s hs => ih hn hq s hs
  | andV x y ihx ihy =>
    rw [andV_eq_andB] at h
    obtain ⟨l, r, h1, h2, h3⟩ := andB_inv h
    intro s hs
    rcases combineSequence_mem (combine_eq h3).2.1 hs with e | e
    · exact ihx hn.1 h1 s e
    · exact ihy hn.2 h2 s e
  | andB x y ihx ihy =>
    obtain ⟨l, r, h1, h2, h3⟩ := andB_inv h
    intro s hs
    rcases combineSequence_mem (combine_eq h3).2.1 hs with e | e
    · exact ihx hn.1 h1 s e
    · exact ihy hn.2 h2 s e
  | orI x y ihx ihy =>
    rcases orI_inv h with ⟨q, hq, e⟩ | ⟨q, hq, e⟩
    · subst e; exact fun s hs => ihx hn.1 hq s hs
    · subst e; exact fun s hs => ihy hn.2 hq s hs
  | pkK k =>
    simp [planSteps] at h
    obtain ⟨_, _, e⟩ := h
    simp [← e]
  | pkH k =>
    simp [planSteps] at h
    obtain ⟨_, _, e⟩ := h
    simp [← e]
  | sha256 k | hash256 k | ripemd160 k | hash160 k =>
    simp [planSteps] at h
    simp [← h.2]
  | _ => simp [planSteps] at h

/-- what the transaction must look like for a plan, in the form used by the induction -/
structure CtxOk (c : Ctx) (lt : Option LockTime) (sq : Option Sequence) : Prop where
  locktime : ∀ x, lt = some x → x.sameUnit (.ofConsensus c.lockTime) ∧ x.toConsensus ≤ c.lockTime
    ∧ c.sequence ≠ 0xffffffff
  sequence : ∀ x, sq = some x → seqMeets c.sequence x = true ∧ 2 ≤ c.version

theorem cltvOk_of {c : Ctx} {n : Nat}
    (h : (LockTime.ofConsensus n).sameUnit (.ofConsensus c.lockTime) ∧ (LockTime.ofConsensus n).toConsensus ≤ c.lockTime
    ∧ c.sequence ≠ 0xffffffff) : cltvOk c n = true := by
  rw [LockTime.toConsensus_of] at h
  obtain ⟨h1, h2, h3⟩ := h
  unfold LockTime.ofConsensus at h1
  simp only [cltvOk, Bool.and_eq_true, decide_eq_true_eq, beq_iff_eq]
  refine ⟨⟨?_, h2⟩, h3⟩
  by_cases ha : n < 500000000 <;> by_cases hb : c.lockTime < 500000000 <;>
    simp [ha, hb, LockTime.sameUnit] at h1 ⊢

theorem csvOk_of {c : Ctx} {n : Nat} (h : seqMeets c.sequence n = true ∧ 2 ≤ c.version) : csvOk c n = true := by
  simp [csvOk, h.1, h.2]

end Verif.Planner
