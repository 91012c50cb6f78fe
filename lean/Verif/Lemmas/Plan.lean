import Verif.Spec.Miniscript

/-! # Lemmas on spending plans: running the completed witness -/

namespace Verif.Planner
open Verif.Tapscript Spec

variable {Key Ak : Type}

theorem LockTime.toConsensus_of (n : Nat) : (LockTime.ofConsensus n).toConsensus = n := by
  unfold LockTime.ofConsensus; split <;> rfl

theorem leDigits_zero (f : Nat) : leDigits f 0 = [] := by cases f <;> simp [leDigits]

theorem leDigits_length (f n : Nat) : (leDigits f n).length ≤ f := by
  induction f generalizing n with
  | zero => simp [leDigits]
  | succ f ih =>
    unfold leDigits; split
    · simp
    · simp; exact ih _

theorem leDigits_last (f n : Nat) (hn : n ≠ 0) (hf : n < 256 ^ f) :
    ∃ d l, leDigits f n = d ++ [l] ∧ l ≠ 0 ∧ l < 256 ∧ l * 256 ^ d.length ≤ n := by
  induction f generalizing n with
  | zero => simp at hf; exact absurd hf hn
  | succ f ih =>
    unfold leDigits
    rw [if_neg hn]
    by_cases h : n / 256 = 0
    · refine ⟨[], n % 256, ?_, ?_, Nat.mod_lt _ (by norm_num), ?_⟩
      · rw [h, leDigits_zero]; rfl
      · omega
      · simp; omega
    · have hf' : n / 256 < 256 ^ f := by
        rw [pow_succ] at hf
        exact Nat.div_lt_of_lt_mul (by rw [mul_comm]; exact hf)
      obtain ⟨d, l, e, hl, hl', hb⟩ := ih (n / 256) h hf'
      refine ⟨n % 256 :: d, l, by rw [e]; rfl, hl, hl', ?_⟩
      have : l * 256 ^ d.length * 256 ≤ n / 256 * 256 := Nat.mul_le_mul_right _ hb
      have h2 : n / 256 * 256 ≤ n := Nat.div_mul_le_self n 256
      simp only [List.length_cons, pow_succ]
      calc l * (256 ^ d.length * 256) = l * 256 ^ d.length * 256 := by ring
        _ ≤ n := le_trans this h2

theorem scriptNum_facts (n : Nat) (h0 : 0 < n) (h : n < 2 ^ 31) :
    truthy (scriptNum n) = true ∧ (scriptNum n).length ≤ 4 := by
  obtain ⟨d, l, e, hl, hl', hb⟩ := leDigits_last 5 n (by omega) (by omega)
  unfold scriptNum
  simp only [e]
  have hd : d.length ≤ 3 := by
    by_contra hc
    have : 256 ^ 4 ≤ 256 ^ d.length := Nat.pow_le_pow_right (by norm_num) (by omega)
    have : 1 * 256 ^ 4 ≤ l * 256 ^ d.length := Nat.mul_le_mul (by omega) this
    omega
  have hlast : (d ++ [l]).getLastD 0 = l := by simp
  rw [hlast]
  by_cases h128 : l ≥ 128
  · rw [if_pos h128]
    have hd' : d.length ≤ 2 := by
      by_contra hc
      have h3 : d.length = 3 := by omega
      rw [h3] at hb
      have : 128 * 256 ^ 3 ≤ l * 256 ^ 3 := Nat.mul_le_mul_right _ h128
      omega
    constructor
    · simp [truthy, hl]
    · simp; omega
  · rw [if_neg h128]
    constructor
    · simp [truthy, hl]
      right
      omega
    · simp; omega

/-- what a run of a fragment with satisfying arguments `w` does, by its type -/
def Runs (c : Ctx) (s : Script) (b : Base) (w : List Bytes) : Prop :=
  match b with
  | .B => ∀ rest alt, ∃ e, exec c s (w.reverse ++ rest, alt) = some (e :: rest, alt)
      ∧ truthy e = true ∧ e.length ≤ 4
  | .V => ∀ rest alt, exec c s (w.reverse ++ rest, alt) = some (rest, alt)
  | .K => ∀ rest alt, ∃ key sig, exec c s (w.reverse ++ rest, alt) = some (key :: sig :: rest, alt)
      ∧ key.length = 32 ∧ sig ≠ [] ∧ c.sigOk key sig = true
  | .W => ∀ x rest alt, ∃ e, (exec c s (x :: (w.reverse ++ rest), alt) = some (e :: x :: rest, alt)
        ∨ exec c s (x :: (w.reverse ++ rest), alt) = some (x :: e :: rest, alt))
      ∧ truthy e = true ∧ e.length ≤ 4

theorem exec_seq (c : Ctx) (a b : Script) (s s' : State) (h : exec c a s = some s') :
    exec c (.seq a b) s = exec c b s' := by simp only [exec, h]

theorem witnessOf_append (lib : Lib Key) (m : Material Key) (a b : List (TemplateItem Key Ak)) (w : List Bytes)
    (h : Plan.witnessOf lib m (a ++ b) = some w) :
    ∃ wa wb, Plan.witnessOf lib m a = some wa ∧ Plan.witnessOf lib m b = some wb ∧ w = wa ++ wb := by
  induction a generalizing w with
  | nil => exact ⟨[], w, rfl, h, rfl⟩
  | cons i is ih =>
    simp only [List.cons_append, Plan.witnessOf] at h ⊢
    cases hi : i.toWitness lib m with
    | none => rw [hi] at h; simp at h
    | some x =>
      rw [hi] at h
      simp only [Option.map_eq_some_iff] at h ⊢
      obtain ⟨w', hw', e⟩ := h
      obtain ⟨wa, wb, h1, h2, h3⟩ := ih w' hw'
      exact ⟨x :: wa, wb, ⟨wa, h1, rfl⟩, h2, by rw [← e, h3]; rfl⟩

theorem witnessOf_length (lib : Lib Key) (m : Material Key) (a : List (TemplateItem Key Ak)) (w : List Bytes)
    (h : Plan.witnessOf lib m a = some w) : w.length = a.length := by
  induction a generalizing w with
  | nil => simp [Plan.witnessOf] at h; simp [← h]
  | cons i is ih =>
    simp only [Plan.witnessOf] at h
    cases hi : i.toWitness lib m with
    | none => rw [hi] at h; simp at h
    | some x =>
      rw [hi] at h
      simp only [Option.map_eq_some_iff] at h
      obtain ⟨w', hw', e⟩ := h
      rw [← e]; simp [ih w' hw']

theorem toVec_len {s : SchnorrSig} (h : s.sig.length = 64) : 64 ≤ s.toVec.length ∧ s.toVec.length ≤ 65 := by
  unfold SchnorrSig.toVec; split <;> simp [h]

/-- the facts about a chosen plan that the type of the expression promises -/
structure Good (c : Ctx) (s : Script) (t : Ty) (w : List Bytes) : Prop where
  runs : Runs c s t.base w
  z : t.z = true → w = []
  o : t.o = true → ∃ x, w = [x]
  n : t.n = true → ∃ x init, w = init ++ [x] ∧ x ≠ [] ∧ x.length ≤ 65

theorem combine_eq {l r p : TermPlan Key Ak} (h : l.combine r = some p) :
    TermPlan.combineLocktime l.minLocktime r.minLocktime = some p.minLocktime ∧
    TermPlan.combineSequence l.minSequence r.minSequence = some p.minSequence ∧
    p.template = l.template ++ r.template := by
  unfold TermPlan.combine at h
  cases h1 : TermPlan.combineLocktime l.minLocktime r.minLocktime with
  | none => rw [h1] at h; simp at h
  | some a =>
    rw [h1] at h
    cases h2 : TermPlan.combineSequence l.minSequence r.minSequence with
    | none => rw [h2] at h; simp at h
    | some b =>
      rw [h2] at h
      have := Option.some.inj h
      subst this
      exact ⟨rfl, rfl, rfl⟩

theorem combineLocktime_meets {c : Ctx} {l r p : Option LockTime} (h : TermPlan.combineLocktime l r = some p)
    (hp : ∀ x, p = some x → x.sameUnit (.ofConsensus c.lockTime) ∧ x.toConsensus ≤ c.lockTime ∧ c.sequence ≠ 0xffffffff) :
    (∀ x, l = some x → x.sameUnit (.ofConsensus c.lockTime) ∧ x.toConsensus ≤ c.lockTime ∧ c.sequence ≠ 0xffffffff) ∧
    (∀ x, r = some x → x.sameUnit (.ofConsensus c.lockTime) ∧ x.toConsensus ≤ c.lockTime ∧ c.sequence ≠ 0xffffffff) := by
  cases l with
  | none =>
    simp only [TermPlan.combineLocktime] at h
    have := Option.some.inj h
    subst this
    exact ⟨by simp, hp⟩
  | some l =>
    cases r with
    | none =>
      simp only [TermPlan.combineLocktime] at h
      have := Option.some.inj h
      subst this
      exact ⟨hp, by simp⟩
    | some r =>
      simp only [TermPlan.combineLocktime] at h
      by_cases hu : l.sameUnit r = true
      · rw [if_pos hu] at h
        have := Option.some.inj h
        subst this
        have hx := hp _ rfl
        constructor
        · intro x hx'
          have := Option.some.inj hx'
          subst this
          split at hx
          · exact hx
          · rename_i hle
            refine ⟨?_, le_trans (by omega) hx.2.1, hx.2.2⟩
            have := hx.1
            revert this hu
            cases l <;> cases r <;> cases LockTime.ofConsensus c.lockTime <;> simp [LockTime.sameUnit]
        · intro x hx'
          have := Option.some.inj hx'
          subst this
          split at hx
          · rename_i hle
            refine ⟨?_, le_trans (by omega) hx.2.1, hx.2.2⟩
            have := hx.1
            revert this hu
            cases l <;> cases r <;> cases LockTime.ofConsensus c.lockTime <;> simp [LockTime.sameUnit]
          · exact hx
      · rw [if_neg hu] at h; cases h

theorem clean_bits {s : Nat} (h : CleanSeq s) : s / 2 ^ 31 % 2 = 0 ∧ s / 2 ^ 22 % 2 * 2 ^ 22 + s % 2 ^ 16 = s := by
  unfold CleanSeq seqMasked at h
  omega

theorem isHeightLocked_clean {s : Nat} (h : CleanSeq s) : isHeightLocked s = decide (s / 2 ^ 22 % 2 = 0) := by
  unfold isHeightLocked
  rw [(clean_bits h).1]; simp

theorem seqMeets_le {s a b : Nat} (ha : CleanSeq a) (hb : CleanSeq b) (hu : isHeightLocked a = isHeightLocked b)
    (hab : a ≤ b) (h : seqMeets s b = true) : seqMeets s a = true := by
  rw [isHeightLocked_clean ha, isHeightLocked_clean hb, decide_eq_decide] at hu
  unfold seqMeets at h ⊢
  simp only [Bool.and_eq_true, decide_eq_true_eq] at h ⊢
  have h1 : seqMasked a = a := ha.symm
  have h2 : seqMasked b = b := hb.symm
  rw [h2] at h
  rw [h1]
  refine ⟨⟨h.1.1, ?_⟩, le_trans hab h.2⟩
  omega

theorem combineSequence_meets {c : Ctx} {l r p : Option Sequence} (h : TermPlan.combineSequence l r = some p)
    (hl : ∀ x, l = some x → CleanSeq x) (hr : ∀ x, r = some x → CleanSeq x)
    (hp : ∀ x, p = some x → seqMeets c.sequence x = true ∧ 2 ≤ c.version) :
    (∀ x, p = some x → CleanSeq x) ∧
    (∀ x, l = some x → seqMeets c.sequence x = true ∧ 2 ≤ c.version) ∧
    (∀ x, r = some x → seqMeets c.sequence x = true ∧ 2 ≤ c.version) := by
  cases l with
  | none =>
    simp only [TermPlan.combineSequence] at h
    have := Option.some.inj h
    subst this
    exact ⟨hr, by simp, hp⟩
  | some l =>
    cases r with
    | none =>
      simp only [TermPlan.combineSequence] at h
      have := Option.some.inj h
      subst this
      exact ⟨hl, hp, by simp⟩
    | some r =>
      simp only [TermPlan.combineSequence] at h
      have hl := hl l rfl
      have hr := hr r rfl
      by_cases hu : isHeightLocked l = isHeightLocked r
      · rw [if_pos hu] at h
        have := Option.some.inj h
        subst this
        have hx := hp _ rfl
        refine ⟨?_, ?_, ?_⟩
        · intro x hx'
          have := Option.some.inj hx'
          subst this
          split <;> assumption
        · intro x hx'
          have := Option.some.inj hx'
          subst this
          split at hx
          · exact hx
          · rename_i hle
            exact ⟨seqMeets_le hl hr hu (Nat.le_of_not_lt hle) hx.1, hx.2⟩
        · intro x hx'
          have := Option.some.inj hx'
          subst this
          split at hx
          · rename_i hle
            exact ⟨seqMeets_le hr hl hu.symm (Nat.le_of_lt hle) hx.1, hx.2⟩
          · exact hx
      · rw [if_neg hu] at h; cases h

end Verif.Planner
