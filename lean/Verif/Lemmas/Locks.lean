import Verif.Spec.Locks
import Mathlib.Algebra.BigOperators.Group.Finset.Basic
import Mathlib.Algebra.Order.BigOperators.Group.Finset

/-!
# Programs that take the store only while they have the tracker
-/

namespace Verif.Locks
open Verif Verif.Cli
variable {σ α β τ : Type}

/-- which locks a thread holds -/
inductive Held where
  | none_
  | tracker
  | both
deriving DecidableEq

/-- `p` can go on from a thread that holds `h`: the store is taken and released only while the tracker is held, requests are made with
no lock, uses only with the tracker, and those that change `keep` only with the store as well -/
def Shaped (keep : σ → τ) : Prog σ α β → Held → Prop
  | .done, h => h = .none_
  | .fail, _ => True
  | .lock .tracker k, h => h = .none_ ∧ Shaped keep k .tracker
  | .lock .store k, h => h = .tracker ∧ Shaped keep k .both
  | .unlock .tracker k, h => h = .tracker ∧ Shaped keep k .none_
  | .unlock .store k, h => h = .both ∧ Shaped keep k .tracker
  | .use f k, h => h ≠ .none_ ∧ (h = .tracker → ∀ s, keep (f s) = keep s) ∧ ∀ s, Shaped keep (k s) h
  | .net _ k, h => h = .none_ ∧ ∀ a, Shaped keep (k a) .none_

theorem andThen_shaped {keep : σ → τ} {q : Prog σ α β} (hq : Shaped keep q .none_) (p : Prog σ α β) :
    ∀ h, Shaped keep p h → Shaped keep (p.andThen q) h := by
  induction p with
  | done => intro h hp; rw [show h = .none_ from hp]; exact hq
  | fail => intro h hp; exact hp
  | lock l k ih => intro h hp; cases l <;> exact ⟨hp.1, ih _ hp.2⟩
  | unlock l k ih => intro h hp; cases l <;> exact ⟨hp.1, ih _ hp.2⟩
  | use f k ih => intro h hp; exact ⟨hp.1, hp.2.1, fun s => ih s _ (hp.2.2 s)⟩
  | net b k ih => intro h hp; exact ⟨hp.1, fun a => ih a _ (hp.2 a)⟩

/-- `p` has at most `n` steps -/
def Within : Prog σ α β → Nat → Prop
  | .done, _ => True
  | .fail, n => 1 ≤ n
  | .lock _ k, n => 1 ≤ n ∧ Within k (n - 1)
  | .unlock _ k, n => 1 ≤ n ∧ Within k (n - 1)
  | .use _ k, n => 1 ≤ n ∧ ∀ s, Within (k s) (n - 1)
  | .net _ k, n => 1 ≤ n ∧ ∀ a, Within (k a) (n - 1)

theorem within_mono (p : Prog σ α β) : ∀ {n m}, Within p n → n ≤ m → Within p m := by
  induction p with
  | done => intro n m _ _; trivial
  | fail => intro n m h hm; exact Nat.le_trans h hm
  | lock l k ih => intro n m h hm; exact ⟨Nat.le_trans h.1 hm, ih h.2 (by omega)⟩
  | unlock l k ih => intro n m h hm; exact ⟨Nat.le_trans h.1 hm, ih h.2 (by omega)⟩
  | use f k ih => intro n m h hm; exact ⟨Nat.le_trans h.1 hm, fun s => ih s (h.2 s) (by omega)⟩
  | net b k ih => intro n m h hm; exact ⟨Nat.le_trans h.1 hm, fun a => ih a (h.2 a) (by omega)⟩

theorem andThen_within {q : Prog σ α β} {m : Nat} (hq : Within q m) (p : Prog σ α β) : ∀ n, Within p n → Within (p.andThen q) (n + m) := by
  induction p with
  | done => intro n _; exact within_mono q hq (by omega)
  | fail => intro n h; exact Nat.le_trans h (Nat.le_add_right _ _)
  | lock l k ih =>
    intro n h
    refine ⟨Nat.le_trans h.1 (Nat.le_add_right _ _), ?_⟩
    have := ih _ h.2
    have e : n - 1 + m = n + m - 1 := by have := h.1; omega
    rwa [e] at this
  | unlock l k ih =>
    intro n h
    refine ⟨Nat.le_trans h.1 (Nat.le_add_right _ _), ?_⟩
    have := ih _ h.2
    have e : n - 1 + m = n + m - 1 := by have := h.1; omega
    rwa [e] at this
  | use f k ih =>
    intro n h
    refine ⟨Nat.le_trans h.1 (Nat.le_add_right _ _), fun s => ?_⟩
    have := ih s _ (h.2 s)
    have e : n - 1 + m = n + m - 1 := by have := h.1; omega
    rwa [e] at this
  | net b k ih =>
    intro n h
    refine ⟨Nat.le_trans h.1 (Nat.le_add_right _ _), fun a => ?_⟩
    have := ih a _ (h.2 a)
    have e : n - 1 + m = n + m - 1 := by have := h.1; omega
    rwa [e] at this

/-- what thread `i` holds -/
def heldBy (s : State σ α β) (i : Nat) : Held :=
  if s.holder .tracker = some i then (if s.holder .store = some i then .both else .tracker) else .none_

/-- the invariant of the machine -/
structure Inv (keep : σ → τ) (s : State σ α β) : Prop where
  shaped : ∀ i, Shaped keep (s.prog i) (heldBy s i)
  inside : ∀ i, s.holder .store = some i → s.holder .tracker = some i
  poison : s.poisoned .store = true → s.poisoned .tracker = true
  free : s.poisoned .tracker = true → s.holder .tracker = none

theorem set_same {ι γ : Type} [DecidableEq ι] (f : ι → γ) (i : ι) (x : γ) : set f i x i = x := if_pos rfl
theorem set_ne {ι γ : Type} [DecidableEq ι] (f : ι → γ) {i j : ι} (x : γ) (h : j ≠ i) : set f i x j = f j := if_neg h

theorem heldBy_both {s : State σ α β} {i : Nat} : heldBy s i = .both ↔ s.holder .tracker = some i ∧ s.holder .store = some i := by
  unfold heldBy
  by_cases h1 : s.holder .tracker = some i
  · by_cases h2 : s.holder .store = some i <;> simp [h1, h2]
  · simp [h1]
theorem heldBy_tracker {s : State σ α β} {i : Nat} : heldBy s i = .tracker ↔ s.holder .tracker = some i ∧ s.holder .store ≠ some i := by
  unfold heldBy
  by_cases h1 : s.holder .tracker = some i
  · by_cases h2 : s.holder .store = some i <;> simp [h1, h2]
  · simp [h1]
theorem heldBy_none {s : State σ α β} {i : Nat} : heldBy s i = .none_ ↔ s.holder .tracker ≠ some i := by
  unfold heldBy
  by_cases h1 : s.holder .tracker = some i
  · by_cases h2 : s.holder .store = some i <;> simp [h1, h2]
  · simp [h1]

theorem init_inv {keep : σ → τ} (x : σ) {p : Nat → Prog σ α β} (hp : ∀ i, Shaped keep (p i) .none_) : Inv keep (State.init x p) := by
  refine ⟨fun i => ?_, fun i h => (by cases h), fun h => (by cases h), fun h => (by cases h)⟩
  rw [heldBy_none.2 (by intro h; cases h)]
  exact hp i

theorem unwind_inv {keep : σ → τ} {s : State σ α β} (h : Inv keep s) (i : Nat) : Inv keep (s.unwind i) := by
  have hh : ∀ l j, (s.unwind i).holder l = some j ↔ s.holder l = some j ∧ j ≠ i := by
    intro l j
    show (if s.holder l = some i then none else s.holder l) = some j ↔ _
    by_cases h1 : s.holder l = some i
    · rw [if_pos h1, h1]
      constructor
      · intro h; cases h
      · rintro ⟨e, hne⟩; cases e; exact absurd rfl hne
    · rw [if_neg h1]
      constructor
      · intro h2; exact ⟨h2, by rintro rfl; exact h1 h2⟩
      · exact fun h2 => h2.1
  refine ⟨fun j => ?_, fun j hj => ?_, fun hp => ?_, fun hp => ?_⟩
  · by_cases hj : j = i
    · subst hj
      show Shaped keep (set s.prog j .done j) _
      rw [set_same, heldBy_none.2 (fun e => ((hh _ _).1 e).2 rfl)]
      rfl
    · have : heldBy (s.unwind i) j = heldBy s j := by
        unfold heldBy
        simp only [hh, hj, ne_eq, not_false_eq_true, and_true]
      rw [this]
      show Shaped keep (set s.prog i .done j) _
      rw [set_ne _ _ hj]
      exact h.shaped j
  · obtain ⟨h1, h2⟩ := (hh _ _).1 hj
    exact (hh _ _).2 ⟨h.inside j h1, h2⟩
  · have hp : (s.poisoned .store || decide (s.holder .store = some i)) = true := hp
    show (s.poisoned .tracker || decide (s.holder .tracker = some i)) = true
    rw [Bool.or_eq_true, decide_eq_true_eq] at hp ⊢
    rcases hp with hp | hp
    · exact .inl (h.poison hp)
    · exact .inr (h.inside i hp)
  · have hp : (s.poisoned .tracker || decide (s.holder .tracker = some i)) = true := hp
    show (if s.holder .tracker = some i then none else s.holder .tracker) = none
    rw [Bool.or_eq_true, decide_eq_true_eq] at hp
    rcases hp with hp | hp
    · rw [h.free hp]; rfl
    · rw [if_pos hp]

/-- a step of a thread that only changes its own program and, perhaps, what is behind the locks -/
theorem plain_inv {keep : σ → τ} {s : State σ α β} (h : Inv keep s) (i : Nat) (x : σ) (r : List (Nat × β)) {p : Prog σ α β}
    (hp : Shaped keep p (heldBy s i)) : Inv keep { s with shared := x, requests := r, prog := set s.prog i p } := by
  refine ⟨fun j => ?_, h.inside, h.poison, h.free⟩
  show Shaped keep (set s.prog i p j) (heldBy s j)
  by_cases hj : j = i
  · subst hj; rw [set_same]; exact hp
  · rw [set_ne _ _ hj]; exact h.shaped j

theorem move_inv {keep : σ → τ} {s s' : State σ α β} (h : Inv keep s) {m : Move α} (hm : s.move m = some s') : Inv keep s' := by
  cases m with
  | panic i =>
    have : s' = s.unwind i := by
      unfold State.move at hm
      cases hp : s.prog i <;> simp only [hp] at hm <;> first | exact (Option.some.inj hm).symm | cases hm
    rw [this]; exact unwind_inv h i
  | step i a =>
    have hi := h.shaped i
    unfold State.move at hm
    cases hp : s.prog i with
    | done => simp only [hp] at hm; cases hm
    | fail => simp only [hp] at hm; cases hm; exact unwind_inv h i
    | use f k =>
      simp only [hp] at hm; cases hm
      rw [hp] at hi
      exact plain_inv h i _ _ (hi.2.2 _)
    | net b k =>
      simp only [hp] at hm; cases hm
      rw [hp] at hi
      refine plain_inv h i _ _ ?_
      rw [hi.1]; exact hi.2 a
    | lock l k =>
      simp only [hp] at hm
      rw [hp] at hi
      split at hm
      · next hfree =>
        split at hm
        · cases hm; exact unwind_inv h i
        · next hpo =>
          cases hm
          cases l with
          | tracker =>
            have hst : s.holder .store = none := by
              cases hs : s.holder .store with
              | none => rfl
              | some j => rw [h.inside j hs] at hfree; cases hfree
            refine ⟨fun j => ?_, fun j hj => ?_, h.poison, fun hq => absurd hq hpo⟩
            · show Shaped keep (set s.prog i k j) _
              by_cases hj : j = i
              · subst hj
                rw [set_same]
                have : heldBy { s with holder := set s.holder .tracker (some j), prog := set s.prog j k } j = .tracker := by
                  refine heldBy_tracker.2 ⟨(show set s.holder .tracker (some j) .tracker = some j from set_same ..), ?_⟩
                  show set s.holder .tracker (some j) .store ≠ some j
                  rw [set_ne _ _ (by decide), hst]; simp
                rw [this]; exact hi.2
              · rw [set_ne _ _ hj]
                have e1 : heldBy { s with holder := set s.holder .tracker (some i), prog := set s.prog i k } j = .none_ := by
                  refine heldBy_none.2 ?_
                  show set s.holder .tracker (some i) .tracker ≠ some j
                  rw [set_same]
                  intro e; cases e; exact hj rfl
                have e2 : heldBy s j = .none_ := heldBy_none.2 (by rw [hfree]; simp)
                have := h.shaped j
                rw [e1]; rw [e2] at this; exact this
            · have hj : set s.holder .tracker (some i) .store = some j := hj
              rw [set_ne _ _ (by decide), hst] at hj; cases hj
          | store =>
            have htr := (heldBy_tracker.1 hi.1).1
            refine ⟨fun j => ?_, fun j hj => ?_, h.poison, fun hq => ?_⟩
            · show Shaped keep (set s.prog i k j) _
              by_cases hj : j = i
              · subst hj
                rw [set_same]
                have : heldBy { s with holder := set s.holder .store (some j), prog := set s.prog j k } j = .both := by
                  refine heldBy_both.2 ⟨?_, (show set s.holder .store (some j) .store = some j from set_same ..)⟩
                  show set s.holder .store (some j) .tracker = some j
                  rw [set_ne _ _ (by decide)]; exact htr
                rw [this]; exact hi.2
              · rw [set_ne _ _ hj]
                have e1 : heldBy { s with holder := set s.holder .store (some i), prog := set s.prog i k } j = .none_ := by
                  refine heldBy_none.2 ?_
                  show set s.holder .store (some i) .tracker ≠ some j
                  rw [set_ne _ _ (by decide), htr]
                  intro e; cases e; exact hj rfl
                have e2 : heldBy s j = .none_ := heldBy_none.2 (by rw [htr]; intro e; cases e; exact hj rfl)
                have := h.shaped j
                rw [e1]; rw [e2] at this; exact this
            · have hj : set s.holder .store (some i) .store = some j := hj
              rw [set_same] at hj
              show set s.holder .store (some i) .tracker = some j
              rw [set_ne _ _ (by decide), htr, hj]
            · have := h.free hq
              rw [htr] at this; cases this
      · cases hm
    | unlock l k =>
      simp only [hp] at hm
      rw [hp] at hi
      split at hm
      · next hmine =>
        cases hm
        cases l with
        | tracker =>
          have hst : s.holder .store = none := by
            cases hs : s.holder .store with
            | none => rfl
            | some j =>
              have := h.inside j hs
              rw [hmine] at this; cases this
              exact absurd hs (heldBy_tracker.1 hi.1).2
          refine ⟨fun j => ?_, fun j hj => ?_, h.poison, fun hq => (show set s.holder .tracker none .tracker = none from set_same ..)⟩
          · show Shaped keep (set s.prog i k j) _
            have e1 : heldBy { s with holder := set s.holder .tracker none, prog := set s.prog i k } j = .none_ := by
              refine heldBy_none.2 ?_
              show set s.holder .tracker none .tracker ≠ some j
              rw [set_same]; simp
            rw [e1]
            by_cases hj : j = i
            · subst hj
              rw [set_same]; exact hi.2
            · rw [set_ne _ _ hj]
              have e2 : heldBy s j = .none_ := heldBy_none.2 (by rw [hmine]; intro e; cases e; exact hj rfl)
              have := h.shaped j
              rw [e2] at this; exact this
          · have hj : set s.holder .tracker none .store = some j := hj
            rw [set_ne _ _ (by decide), hst] at hj; cases hj
        | store =>
          have htr := (heldBy_both.1 hi.1).1
          refine ⟨fun j => ?_, fun j hj => ?_, h.poison, fun hq => ?_⟩
          · show Shaped keep (set s.prog i k j) _
            by_cases hj : j = i
            · subst hj
              rw [set_same]
              have : heldBy { s with holder := set s.holder .store none, prog := set s.prog j k } j = .tracker := by
                refine heldBy_tracker.2 ⟨?_, ?_⟩
                · show set s.holder .store none .tracker = some j
                  rw [set_ne _ _ (by decide)]; exact htr
                · show set s.holder .store none .store ≠ some j
                  rw [set_same]; simp
              rw [this]; exact hi.2
            · rw [set_ne _ _ hj]
              have e1 : heldBy { s with holder := set s.holder .store none, prog := set s.prog i k } j = .none_ := by
                refine heldBy_none.2 ?_
                show set s.holder .store none .tracker ≠ some j
                rw [set_ne _ _ (by decide), htr]
                intro e; cases e; exact hj rfl
              have e2 : heldBy s j = .none_ := heldBy_none.2 (by rw [htr]; intro e; cases e; exact hj rfl)
              have := h.shaped j
              rw [e1]; rw [e2] at this; exact this
          · have hj : set s.holder .store none .store = some j := hj
            rw [set_same] at hj; cases hj
          · have := h.free hq
            rw [htr] at this; cases this
      · cases hm

theorem run_inv {keep : σ → τ} (ms : List (Move α)) : ∀ {s s' : State σ α β}, Inv keep s → s.run ms = some s' → Inv keep s' := by
  induction ms with
  | nil => intro s s' h hr; cases hr; exact h
  | cons m ms ih =>
    intro s s' h hr
    unfold State.run at hr
    split at hr
    · cases hr
    · next s1 hm => exact ih (move_inv h hm) hr

theorem run_snoc (ms : List (Move α)) : ∀ {s s1 s2 : State σ α β} {m : Move α}, s.run ms = some s1 → s1.move m = some s2 →
    s.run (ms ++ [m]) = some s2 := by
  induction ms with
  | nil => intro s s1 s2 m h hm; cases h; show State.run s [m] = _; unfold State.run; rw [hm]; rfl
  | cons m' ms ih =>
    intro s s1 s2 m h hm
    rw [List.cons_append]
    unfold State.run at h ⊢
    split at h
    · cases h
    · next s' hm' => exact ih h hm

/-- some thread can go on -/
theorem can_move {keep : σ → τ} {s : State σ α β} (h : Inv keep s) (a : α) {i : Nat} (hi : s.prog i ≠ .done) :
    ∃ j, (s.move (.step j a)).isSome = true := by
  have hfree : ∀ j l k, s.prog j = .lock l k → s.holder l = none → (s.move (.step j a)).isSome = true := by
    intro j l k hp hl
    unfold State.move
    simp only [hp, hl, if_true]
    split <;> rfl
  cases ht : s.holder .tracker with
  | none =>
    refine ⟨i, ?_⟩
    have hsh := h.shaped i
    rw [heldBy_none.2 (by rw [ht]; simp)] at hsh
    cases hp : s.prog i with
    | done => exact absurd hp hi
    | fail => unfold State.move; simp only [hp]; rfl
    | lock l k =>
      cases l with
      | tracker => exact hfree i _ k hp ht
      | store => rw [hp] at hsh; cases hsh.1
    | unlock l k => rw [hp] at hsh; cases l <;> cases hsh.1
    | use f k => unfold State.move; simp only [hp]; rfl
    | net b k => unfold State.move; simp only [hp]; rfl
  | some j =>
    refine ⟨j, ?_⟩
    have hsh := h.shaped j
    cases hp : s.prog j with
    | done =>
      rw [hp] at hsh
      exact absurd ht (heldBy_none.1 hsh)
    | fail => unfold State.move; simp only [hp]; rfl
    | lock l k =>
      rw [hp] at hsh
      cases l with
      | tracker => exact absurd ht (heldBy_none.1 hsh.1)
      | store =>
        refine hfree j _ k hp ?_
        cases hs : s.holder .store with
        | none => rfl
        | some k' =>
          have := h.inside k' hs
          rw [ht] at this; cases this
          exact absurd hs (heldBy_tracker.1 hsh.1).2
    | unlock l k =>
      rw [hp] at hsh
      have : s.holder l = some j := by
        cases l with
        | tracker => exact ht
        | store => exact (heldBy_both.1 hsh.1).2
      unfold State.move; simp only [hp, this, if_true]; rfl
    | use f k => unfold State.move; simp only [hp]; rfl
    | net b k => unfold State.move; simp only [hp]; rfl

/-! ### every thread comes to an end -/

/-- a move takes a thread that is not done, and one step off what it can still do -/
theorem move_within {s s' : State σ α β} {m : Move α} (hm : s.move m = some s') :
    ∃ i p, s.prog i ≠ .done ∧ s'.prog = set s.prog i p ∧ ∀ n, Within (s.prog i) n → 1 ≤ n ∧ Within p (n - 1) := by
  cases m with
  | panic i =>
    refine ⟨i, .done, ?_⟩
    unfold State.move at hm
    cases hp : s.prog i <;> simp only [hp] at hm <;> cases hm <;>
      exact ⟨by simp, rfl, fun n hn => ⟨by first | exact hn.1 | exact hn, trivial⟩⟩
  | step i a =>
    unfold State.move at hm
    cases hp : s.prog i with
    | done => simp only [hp] at hm; cases hm
    | fail => simp only [hp] at hm; cases hm; exact ⟨i, .done, by rw [hp]; simp, rfl, fun n hn => ⟨by rw [hp] at hn; exact hn, trivial⟩⟩
    | use f k =>
      simp only [hp] at hm; cases hm
      exact ⟨i, k s.shared, by rw [hp]; simp, rfl, fun n hn => by rw [hp] at hn; exact ⟨hn.1, hn.2 _⟩⟩
    | net b k =>
      simp only [hp] at hm; cases hm
      exact ⟨i, k a, by rw [hp]; simp, rfl, fun n hn => by rw [hp] at hn; exact ⟨hn.1, hn.2 _⟩⟩
    | lock l k =>
      simp only [hp] at hm
      split at hm
      · split at hm
        · cases hm
          exact ⟨i, .done, by rw [hp]; simp, rfl, fun n hn => by rw [hp] at hn; exact ⟨hn.1, trivial⟩⟩
        · cases hm
          exact ⟨i, k, by rw [hp]; simp, rfl, fun n hn => by rw [hp] at hn; exact hn⟩
      · cases hm
    | unlock l k =>
      simp only [hp] at hm
      split at hm
      · cases hm
        exact ⟨i, k, by rw [hp]; simp, rfl, fun n hn => by rw [hp] at hn; exact hn⟩
      · cases hm

theorem run_within (N : Nat) (ms : List (Move α)) : ∀ {s s' : State σ α β} (b : Nat → Nat), (∀ i, Within (s.prog i) (b i)) →
    (∀ i, N ≤ i → s.prog i = .done) → s.run ms = some s' → ms.length ≤ ∑ i ∈ Finset.range N, b i := by
  induction ms with
  | nil => intro s s' b _ _ _; exact Nat.zero_le _
  | cons m ms ih =>
    intro s s' b hb hN hr
    unfold State.run at hr
    split at hr
    · cases hr
    · next s1 hm =>
      obtain ⟨i, p, hi, hp, hw⟩ := move_within hm
      have hiN : i < N := by
        by_contra hc
        exact hi (hN i (by omega))
      obtain ⟨h1, h2⟩ := hw (b i) (hb i)
      have := ih (s := s1) (s' := s') (set b i (b i - 1)) (fun j => by
          rw [hp]
          by_cases hj : j = i
          · subst hj; rw [set_same, set_same]; exact h2
          · rw [set_ne _ _ hj, set_ne _ _ hj]; exact hb j)
        (fun j hj => by
          rw [hp, set_ne _ _ (by omega)]; exact hN j hj) hr
      have hsum : ∑ j ∈ Finset.range N, set b i (b i - 1) j + 1 ≤ ∑ j ∈ Finset.range N, b j := by
        have hlt : ∑ j ∈ Finset.range N, set b i (b i - 1) j < ∑ j ∈ Finset.range N, b j := by
          refine Finset.sum_lt_sum (fun j _ => ?_) ⟨i, Finset.mem_range.2 hiN, ?_⟩
          · by_cases hj : j = i
            · subst hj; rw [set_same]; omega
            · rw [set_ne _ _ hj]
          · rw [set_same]; omega
        exact hlt
      rw [List.length_cons]
      omega

/-! ### sections are single steps -/

/-- every use of `p` goes up in `le` -/
def Mono (le : σ → σ → Prop) : Prog σ α β → Prop
  | .done => True
  | .fail => True
  | .lock _ k => Mono le k
  | .unlock _ k => Mono le k
  | .use f k => (∀ s, le s (f s)) ∧ ∀ s, Mono le (k s)
  | .net _ k => ∀ a, Mono le (k a)

theorem mono_true (p : Prog σ α β) : Mono (fun _ _ => True) p := by
  induction p with
  | done => trivial
  | fail => trivial
  | lock l k ih => exact ih
  | unlock l k ih => exact ih
  | use f k ih => exact ⟨fun _ => trivial, ih⟩
  | net b k ih => exact ih

theorem andThen_mono {le : σ → σ → Prop} {q : Prog σ α β} (hq : Mono le q) (p : Prog σ α β) : Mono le p → Mono le (p.andThen q) := by
  induction p with
  | done => intro _; exact hq
  | fail => intro h; exact h
  | lock l k ih => exact ih
  | unlock l k ih => exact ih
  | use f k ih => exact fun h => ⟨h.1, fun s => ih s (h.2 s)⟩
  | net b k ih => exact fun h a => ih a (h a)

theorem toEnd_le {le : σ → σ → Prop} (hrf : ∀ x, le x x) (htr : ∀ {x y z}, le x y → le y z → le x z) (p : Prog σ α β) :
    ∀ {s : σ} {e : σ × Prog σ α β}, Mono le p → toEnd s p = some e → le s e.1 := by
  induction p with
  | done => intro s e _ h; cases h
  | fail => intro s e _ h; cases h
  | lock l k ih => intro s e hm h; exact ih hm h
  | unlock l k ih =>
    intro s e hm h
    cases l with
    | tracker => cases h; exact hrf _
    | store => exact ih hm h
  | use f k ih => intro s e hm h; exact htr (hm.1 s) (ih s (hm.2 s) h)
  | net b k ih => intro s e _ h; cases h

theorem set_mono {le : σ → σ → Prop} {prog : Nat → Prog σ α β} (h : ∀ i, Mono le (prog i)) {i : Nat} {p : Prog σ α β} (hp : Mono le p) (j : Nat) :
    Mono le (set prog i p j) := by
  by_cases hj : j = i
  · subst hj; rw [set_same]; exact hp
  · rw [set_ne _ _ hj]; exact h j

theorem move_mono {le : σ → σ → Prop} {s s' : State σ α β} (h : ∀ i, Mono le (s.prog i)) {m : Move α} (hm : s.move m = some s') :
    ∀ i, Mono le (s'.prog i) := by
  cases m with
  | panic i =>
    unfold State.move at hm
    cases hp : s.prog i <;> simp only [hp] at hm <;> cases hm <;> exact set_mono h trivial
  | step i a =>
    have hi := h i
    unfold State.move at hm
    cases hp : s.prog i with
    | done => simp only [hp] at hm; cases hm
    | fail => simp only [hp] at hm; cases hm; exact set_mono h trivial
    | use f k => simp only [hp] at hm; cases hm; rw [hp] at hi; exact set_mono h (hi.2 _)
    | net b k => simp only [hp] at hm; cases hm; rw [hp] at hi; exact set_mono h (hi a)
    | lock l k =>
      simp only [hp] at hm
      rw [hp] at hi
      split at hm
      · split at hm
        · cases hm; exact set_mono h trivial
        · cases hm; exact set_mono h hi
      · cases hm
    | unlock l k =>
      simp only [hp] at hm
      rw [hp] at hi
      split at hm
      · cases hm; exact set_mono h hi
      · cases hm

/-- the threads with single-step sections, while a section is being executed -/
def Sim (le : σ → σ → Prop) (c : Atomic σ α β) (s : State σ α β) : Prop :=
  c.requests = s.requests ∧
  match s.holder .tracker with
  | none => c.shared = s.shared ∧ ∀ i, c.prog i = s.prog i
  | some j => (∀ i, i ≠ j → c.prog i = s.prog i) ∧ ∃ k, c.prog j = .lock .tracker k ∧ toEnd c.shared k = toEnd s.shared (s.prog j) ∧ le c.shared s.shared

theorem poison_mono {s s' : State σ α β} {m : Move α} (hm : s.move m = some s') {l : Lock} (h : s'.poisoned l = false) : s.poisoned l = false := by
  have hu : ∀ i, (s.unwind i).poisoned l = false → s.poisoned l = false := by
    intro i h
    have h : (s.poisoned l || decide (s.holder l = some i)) = false := h
    rw [Bool.or_eq_false_iff] at h; exact h.1
  cases m with
  | panic i =>
    unfold State.move at hm
    cases hp : s.prog i <;> simp only [hp] at hm <;> cases hm <;> exact hu i h
  | step i a =>
    unfold State.move at hm
    cases hp : s.prog i with
    | done => simp only [hp] at hm; cases hm
    | fail => simp only [hp] at hm; cases hm; exact hu i h
    | use f k => simp only [hp] at hm; cases hm; exact h
    | net b k => simp only [hp] at hm; cases hm; exact h
    | lock l k =>
      simp only [hp] at hm
      split at hm
      · split at hm
        · cases hm; exact hu i h
        · cases hm; exact h
      · cases hm
    | unlock l k =>
      simp only [hp] at hm
      split at hm
      · cases hm; exact h
      · cases hm

theorem run_poison_mono (ms : List (Move α)) : ∀ {s s' : State σ α β}, s.run ms = some s' → ∀ {l : Lock}, s'.poisoned l = false →
    s.poisoned l = false := by
  induction ms with
  | nil => intro s s' h; cases h; exact id
  | cons m ms ih =>
    intro s s' h l hl
    unfold State.run at h
    split at h
    · cases h
    · next s1 hm => exact poison_mono hm (ih h hl)

/-- a thread without locks stops -/
theorem unwind_sim {keep : σ → τ} {le : σ → σ → Prop} {c : Atomic σ α β} {s : State σ α β} (h : Inv keep s) (hc : Sim le c s) (i : Nat)
    (hi : s.holder .tracker ≠ some i) : ∃ c', c.move (.stop i) = some c' ∧ Sim le c' (s.unwind i) := by
  refine ⟨_, rfl, ?_⟩
  have hh : (s.unwind i).holder .tracker = s.holder .tracker := if_neg hi
  unfold Sim at hc ⊢
  refine ⟨hc.1, ?_⟩
  rw [hh]
  cases ht : s.holder .tracker with
  | none =>
    rw [ht] at hc
    refine ⟨hc.2.1, fun j => ?_⟩
    show set c.prog i .done j = set s.prog i .done j
    unfold set
    rw [hc.2.2 j]
  | some j =>
    rw [ht] at hc hi
    have hj : j ≠ i := fun e => hi (by rw [e])
    obtain ⟨h1, k, h2, h3, h4⟩ := hc.2
    refine ⟨fun i' hi' => ?_, k, ?_, ?_, h4⟩
    · show set c.prog i .done i' = set s.prog i .done i'
      unfold set
      rw [h1 i' hi']
    · show set c.prog i .done j = _
      rw [set_ne _ _ hj]; exact h2
    · show toEnd c.shared k = toEnd s.shared (set s.prog i .done j)
      rw [set_ne _ _ hj]; exact h3

theorem unwind_holder {s : State σ α β} {i : Nat} (h : (s.unwind i).poisoned .tracker = false) : s.holder .tracker ≠ some i := by
  have h : (s.poisoned .tracker || decide (s.holder .tracker = some i)) = false := h
  rw [Bool.or_eq_false_iff, decide_eq_false_iff_not] at h
  exact h.2

theorem Atomic.run_one {c c' : Atomic σ α β} {m : AMove α} (h : c.move m = some c') : c.run [m] = some c' := by
  unfold Atomic.run
  rw [h]; rfl

theorem Atomic.run_append (l : List (AMove α)) : ∀ {c c' c'' : Atomic σ α β} {l' : List (AMove α)}, c.run l = some c' → c'.run l' = some c'' →
    c.run (l ++ l') = some c'' := by
  induction l with
  | nil => intro c c' c'' l' h h'; cases h; exact h'
  | cons m l ih =>
    intro c c' c'' l' h h'
    rw [List.cons_append]
    unfold Atomic.run at h ⊢
    split at h
    · cases h
    · next c1 hm => exact ih h h'

theorem move_sim {keep : σ → τ} {le : σ → σ → Prop} (hrf : ∀ x, le x x) (htr : ∀ {x y z}, le x y → le y z → le x z)
    {c : Atomic σ α β} {s s' : State σ α β} (h : Inv keep s) (hmono : ∀ i, Mono le (s.prog i)) (hc : Sim le c s) {m : Move α} (hm : s.move m = some s')
    (hpo : s'.poisoned .tracker = false) : ∃ l c', c.run l = some c' ∧ Sim le c' s' := by
  have stop : ∀ i, s' = s.unwind i → ∃ l c', c.run l = some c' ∧ Sim le c' s' := by
    rintro i rfl
    obtain ⟨c', h1, h2⟩ := unwind_sim h hc i (unwind_holder hpo)
    exact ⟨_, c', Atomic.run_one h1, h2⟩
  have hpo' := poison_mono hm hpo
  cases m with
  | panic i =>
    refine stop i ?_
    unfold State.move at hm
    cases hp : s.prog i <;> simp only [hp] at hm <;> first | exact (Option.some.inj hm).symm | cases hm
  | step i a =>
    have hi := h.shaped i
    unfold State.move at hm
    cases hp : s.prog i with
    | done => simp only [hp] at hm; cases hm
    | fail => simp only [hp] at hm; exact stop i (Option.some.inj hm).symm
    | net b k =>
      simp only [hp] at hm; cases hm
      rw [hp] at hi
      have hni := heldBy_none.1 hi.1
      have hci : c.prog i = .net b k := by
        unfold Sim at hc
        cases ht : s.holder .tracker with
        | none => rw [ht] at hc; rw [hc.2.2 i, hp]
        | some j =>
          rw [ht] at hc hni
          rw [hc.2.1 i (fun e => hni (by rw [e])), hp]
      refine ⟨[.request i a], ⟨c.shared, c.requests ++ [(i, b)], set c.prog i (k a)⟩, Atomic.run_one ?_, ?_⟩
      · unfold Atomic.move
        simp only [hci]
      · unfold Sim at hc ⊢
        refine ⟨by rw [hc.1], ?_⟩
        show (match s.holder .tracker with | none => _ | some j => _)
        cases ht : s.holder .tracker with
        | none =>
          rw [ht] at hc
          refine ⟨hc.2.1, fun j => ?_⟩
          show set c.prog i (k a) j = set s.prog i (k a) j
          unfold set
          rw [hc.2.2 j]
        | some j =>
          rw [ht] at hc hni
          have hj : j ≠ i := fun e => hni (by rw [e])
          obtain ⟨h1, k', h2, h3, hle⟩ := hc.2
          refine ⟨fun i' hi' => ?_, k', ?_, ?_, hle⟩
          · show set c.prog i (k a) i' = set s.prog i (k a) i'
            unfold set
            rw [h1 i' hi']
          · show set c.prog i (k a) j = _
            rw [set_ne _ _ hj]; exact h2
          · show toEnd c.shared k' = toEnd s.shared (set s.prog i (k a) j)
            rw [set_ne _ _ hj]; exact h3
    | use f k =>
      simp only [hp] at hm; cases hm
      rw [hp] at hi
      have hme : s.holder .tracker = some i := by
        by_contra hn
        exact hi.1 (heldBy_none.2 hn)
      refine ⟨[], c, rfl, ?_⟩
      unfold Sim at hc ⊢
      refine ⟨hc.1, ?_⟩
      show (match s.holder .tracker with | none => _ | some j => _)
      rw [hme] at hc ⊢
      obtain ⟨h1, k', h2, h3, hle⟩ := hc.2
      have hm1 := hmono i
      rw [hp] at hm1
      refine ⟨fun i' hi' => ?_, k', h2, ?_, htr hle (hm1.1 _)⟩
      · show c.prog i' = set s.prog i (k s.shared) i'
        rw [set_ne _ _ hi']; exact h1 i' hi'
      · show toEnd c.shared k' = toEnd (f s.shared) (set s.prog i (k s.shared) i)
        rw [set_same, h3, hp]; rfl
    | lock l k =>
      simp only [hp] at hm
      rw [hp] at hi
      split at hm
      · next hfree =>
        split at hm
        · exact stop i (Option.some.inj hm).symm
        · cases hm
          cases l with
          | tracker =>
            refine ⟨[], c, rfl, ?_⟩
            unfold Sim at hc ⊢
            refine ⟨hc.1, ?_⟩
            rw [hfree] at hc
            show (match set s.holder .tracker (some i) .tracker with
              | none => c.shared = s.shared ∧ ∀ j, c.prog j = set s.prog i k j
              | some j => (∀ i', i' ≠ j → c.prog i' = set s.prog i k i') ∧
                ∃ k', c.prog j = .lock .tracker k' ∧ toEnd c.shared k' = toEnd s.shared (set s.prog i k j) ∧ le c.shared s.shared)
            rw [set_same]
            refine ⟨fun i' hi' => ?_, k, ?_, ?_, (by rw [hc.2.1]; exact hrf _)⟩
            · show c.prog i' = set s.prog i k i'
              rw [set_ne _ _ hi']; exact hc.2.2 i'
            · rw [hc.2.2 i, hp]
            · show toEnd c.shared k = toEnd s.shared (set s.prog i k i)
              rw [set_same, hc.2.1]
          | store =>
            have htr := (heldBy_tracker.1 hi.1).1
            refine ⟨[], c, rfl, ?_⟩
            unfold Sim at hc ⊢
            refine ⟨hc.1, ?_⟩
            show (match set s.holder .store (some i) .tracker with | none => _ | some j => _)
            rw [set_ne _ _ (by decide), htr]
            rw [htr] at hc
            obtain ⟨h1, k', h2, h3, hle⟩ := hc.2
            refine ⟨fun i' hi' => ?_, k', h2, ?_, hle⟩
            · show c.prog i' = set s.prog i k i'
              rw [set_ne _ _ hi']; exact h1 i' hi'
            · show toEnd c.shared k' = toEnd s.shared (set s.prog i k i)
              rw [set_same, h3, hp]; rfl
      · cases hm
    | unlock l k =>
      simp only [hp] at hm
      rw [hp] at hi
      split at hm
      · next hmine =>
        cases hm
        cases l with
        | tracker =>
          unfold Sim at hc
          rw [hmine] at hc
          obtain ⟨h1, k', h2, h3, hle⟩ := hc.2
          have h4 : toEnd c.shared k' = some (s.shared, k) := by rw [h3, hp]; rfl
          refine ⟨[.section_ i], ⟨s.shared, c.requests, set c.prog i k⟩, Atomic.run_one ?_, ?_⟩
          · unfold Atomic.move
            simp only [h2, sectionOf, h4]; rfl
          · unfold Sim
            refine ⟨hc.1, ?_⟩
            show (match set s.holder .tracker none .tracker with
              | none => s.shared = s.shared ∧ ∀ j, set c.prog i k j = set s.prog i k j
              | some j => (∀ i', i' ≠ j → set c.prog i k i' = set s.prog i k i') ∧
                ∃ k', set c.prog i k j = .lock .tracker k' ∧ toEnd s.shared k' = toEnd s.shared (set s.prog i k j) ∧ le s.shared s.shared)
            rw [set_same]
            refine ⟨rfl, fun j => ?_⟩
            show set c.prog i k j = set s.prog i k j
            by_cases hj : j = i
            · subst hj; rw [set_same, set_same]
            · rw [set_ne _ _ hj, set_ne _ _ hj]; exact h1 j hj
        | store =>
          have htr := (heldBy_both.1 hi.1).1
          refine ⟨[], c, rfl, ?_⟩
          unfold Sim at hc ⊢
          refine ⟨hc.1, ?_⟩
          show (match set s.holder .store none .tracker with | none => _ | some j => _)
          rw [set_ne _ _ (by decide), htr]
          rw [htr] at hc
          obtain ⟨h1, k', h2, h3, hle⟩ := hc.2
          refine ⟨fun i' hi' => ?_, k', h2, ?_, hle⟩
          · show c.prog i' = set s.prog i k i'
            rw [set_ne _ _ hi']; exact h1 i' hi'
          · show toEnd c.shared k' = toEnd s.shared (set s.prog i k i)
            rw [set_same, h3, hp]; rfl
      · cases hm

theorem run_sim {keep : σ → τ} {le : σ → σ → Prop} (hrf : ∀ x, le x x) (htr : ∀ {x y z}, le x y → le y z → le x z)
    (ms : List (Move α)) : ∀ {c : Atomic σ α β} {s s' : State σ α β}, Inv keep s → (∀ i, Mono le (s.prog i)) → Sim le c s → s.run ms = some s' →
    s'.poisoned .tracker = false → ∃ l c', c.run l = some c' ∧ Sim le c' s' := by
  induction ms with
  | nil => intro c s s' _ _ hc hr _; cases hr; exact ⟨[], c, rfl, hc⟩
  | cons m ms ih =>
    intro c s s' h hmono hc hr hpo
    unfold State.run at hr
    split at hr
    · cases hr
    · next s1 hm =>
      obtain ⟨l, c1, h1, h2⟩ := move_sim hrf htr h hmono hc hm (run_poison_mono ms hr hpo)
      obtain ⟨l', c2, h3, h4⟩ := ih (move_inv h hm) (move_mono hmono hm) h2 hr hpo
      exact ⟨l ++ l', c2, Atomic.run_append l h1 h3, h4⟩

end Verif.Locks
