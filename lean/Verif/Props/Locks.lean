import Verif.Lemmas.LocksRun
import Verif.Props.Cli
import Mathlib.Algebra.BigOperators.Ring.Finset

/-!
# C84: threads and the two mutexes
-/

namespace Verif.Locks
open Verif Verif.Cli Verif.Spec
variable {D Key Ak Sec XPrv Msg P T : Type}
variable [DecidableEq Key] [DecidableEq Ak]
variable [DecidableEq D] [DescriptorOps D]
variable [LinearOrder P] [ChainPosition P] [AsTransaction T] [LinearOrder T]

theorem reaches_inv {env : Env D Key Ak Sec XPrv Msg T} {l : List (List (Command P T))} {x : Shared D P T} {ms : List (Move (Reply P T))}
    {s : State (Shared D P T) (Reply P T) Request} (h : Reaches env l x ms s) : Inv traceOf s :=
  run_inv ms (init_inv x (threads_shaped env l)) h

/-- **C84** however the threads are interleaved and wherever they panic: as long as some thread is not done, some thread can go on -/
theorem C84_no_deadlock (env : Env D Key Ak Sec XPrv Msg T) (l : List (List (Command P T))) (x : Shared D P T) (ms : List (Move (Reply P T)))
    (s : State (Shared D P T) (Reply P T) Request) (h : Reaches env l x ms s) (i : Nat) (hi : s.prog i ≠ .done) (a : Reply P T) :
    ∃ j, (s.move (.step j a)).isSome = true :=
  can_move (reaches_inv h) a hi

/-- **C84** the threads come to an end: at most fifteen steps for every command -/
theorem C84_finishes (env : Env D Key Ak Sec XPrv Msg T) (l : List (List (Command P T))) (x : Shared D P T) (ms : List (Move (Reply P T)))
    (s : State (Shared D P T) (Reply P T) Request) (h : Reaches env l x ms s) : ms.length ≤ 15 * (l.map List.length).sum := by
  have := run_within l.length ms (s := State.init x (threadsOf env l)) (fun i => 15 * (l[i]?.getD []).length) (fun i => by
      show Within (threadsOf env l i) _
      unfold threadsOf
      split
      · next cs hc => rw [hc]; exact codeOf_within env cs
      · trivial) (fun i hi => by
      show threadsOf env l i = _
      unfold threadsOf
      rw [List.getElem?_eq_none hi]) h
  refine Nat.le_trans this (Nat.le_of_eq ?_)
  clear this h
  rw [← Finset.mul_sum]
  congr 1
  induction l with
  | nil => rfl
  | cons a l ih =>
    rw [List.length_cons, Finset.sum_range_succ', List.map_cons, List.sum_cons, Nat.add_comm]
    show a.length + _ = _
    congr 1

/-- **C84** when nothing can go on any more, every thread is done and every lock is free -/
theorem C84_all_done (env : Env D Key Ak Sec XPrv Msg T) (l : List (List (Command P T))) (x : Shared D P T) (ms : List (Move (Reply P T)))
    (s : State (Shared D P T) (Reply P T) Request) (h : Reaches env l x ms s) (a : Reply P T) (hn : ∀ i, s.move (.step i a) = none) :
    (∀ i, s.prog i = .done) ∧ ∀ k, s.holder k = none := by
  have h1 : ∀ i, s.prog i = .done := by
    intro i
    by_contra hi
    obtain ⟨j, hj⟩ := C84_no_deadlock env l x ms s h i hi a
    rw [hn j] at hj; cases hj
  have hi := reaches_inv h
  have ht : s.holder .tracker = none := by
    cases ht : s.holder .tracker with
    | none => rfl
    | some j =>
      have := hi.shaped j
      rw [h1 j] at this
      exact absurd ht (heldBy_none.1 this)
  refine ⟨h1, fun k => ?_⟩
  cases k with
  | tracker => exact ht
  | store =>
    cases hs : s.holder .store with
    | none => rfl
    | some j => rw [hi.inside j hs] at ht; cases ht

/-- **C84** what is behind the locks changes only by a step of the thread that holds the tracker, the database and what is printed of
an address only by a step of the thread that holds the store as well, and no request to the network is made by a thread that holds a lock -/
theorem C84_protected (env : Env D Key Ak Sec XPrv Msg T) (l : List (List (Command P T))) (x : Shared D P T) (ms : List (Move (Reply P T)))
    (s s' : State (Shared D P T) (Reply P T) Request) (h : Reaches env l x ms s) (m : Move (Reply P T)) (hm : s.move m = some s') :
    (s'.shared ≠ s.shared → ∃ i a, m = .step i a ∧ s.holder .tracker = some i) ∧
    (s'.shared.trace ≠ s.shared.trace → ∃ i a, m = .step i a ∧ s.holder .tracker = some i ∧ s.holder .store = some i) ∧
    (s'.requests ≠ s.requests → ∃ i a, m = .step i a ∧ ∀ k, s.holder k ≠ some i) := by
  have hinv := reaches_inv h
  have same : s'.shared = s.shared → s'.requests = s.requests →
      (s'.shared ≠ s.shared → ∃ i a, m = .step i a ∧ s.holder .tracker = some i) ∧
      (s'.shared.trace ≠ s.shared.trace → ∃ i a, m = .step i a ∧ s.holder .tracker = some i ∧ s.holder .store = some i) ∧
      (s'.requests ≠ s.requests → ∃ i a, m = .step i a ∧ ∀ k, s.holder k ≠ some i) := by
    intro e1 e2
    exact ⟨fun hc => absurd e1 hc, fun hc => absurd (by rw [e1]) hc, fun hc => absurd e2 hc⟩
  cases m with
  | panic i =>
    unfold State.move at hm
    cases hp : s.prog i <;> simp only [hp] at hm <;> cases hm <;> exact same rfl rfl
  | step i a =>
    have hi := hinv.shaped i
    unfold State.move at hm
    cases hp : s.prog i with
    | done => simp only [hp] at hm; cases hm
    | fail => simp only [hp] at hm; cases hm; exact same rfl rfl
    | use f k =>
      simp only [hp] at hm; cases hm
      rw [hp] at hi
      have ht : s.holder .tracker = some i := by
        by_contra hc
        exact hi.1 (heldBy_none.2 hc)
      refine ⟨fun _ => ⟨i, a, rfl, ht⟩, fun hc => ⟨i, a, rfl, ht, ?_⟩, fun hc => absurd rfl hc⟩
      by_contra hs
      exact hc (hi.2.1 (heldBy_tracker.2 ⟨ht, hs⟩) s.shared)
    | net b k =>
      simp only [hp] at hm; cases hm
      rw [hp] at hi
      have ht := heldBy_none.1 hi.1
      refine ⟨fun hc => absurd rfl hc, fun hc => absurd rfl hc, fun _ => ⟨i, a, rfl, fun k => ?_⟩⟩
      cases k with
      | tracker => exact ht
      | store => exact fun hs => ht (hinv.inside i hs)
    | lock k k' =>
      simp only [hp] at hm
      split at hm
      · split at hm <;> cases hm <;> exact same rfl rfl
      · cases hm
    | unlock k k' =>
      simp only [hp] at hm
      split at hm
      · cases hm; exact same rfl rfl
      · cases hm

/-- **C84** sections do not mix: as long as no thread panicked while it held a lock, whenever no section is being executed, the same
state is reached by threads for which every section is one single step -/
theorem C84_atomic (env : Env D Key Ak Sec XPrv Msg T) (l : List (List (Command P T))) (x : Shared D P T) (ms : List (Move (Reply P T)))
    (s : State (Shared D P T) (Reply P T) Request) (h : Reaches env l x ms s) (hp : s.poisoned .tracker = false)
    (hh : s.holder .tracker = none) :
    ∃ am, (Atomic.mk x [] (threadsOf env l)).run am = some ⟨s.shared, s.requests, s.prog⟩ := by
  obtain ⟨am, c, h1, h2⟩ := run_sim (le := fun _ _ => True) (fun _ => trivial) (fun _ _ => trivial) ms (c := ⟨x, [], threadsOf env l⟩)
    (init_inv (keep := traceOf) x (threads_shaped env l)) (fun i => mono_true _) ⟨rfl, rfl, fun _ => rfl⟩ h hp
  refine ⟨am, h1.trans ?_⟩
  unfold Sim at h2
  rw [hh] at h2
  obtain ⟨sh, rs, pr⟩ := c
  obtain ⟨e1, e2, e3⟩ := h2
  cases e1; cases e2
  rw [show pr = s.prog from funext e3]

/-- **C84** and that is a run of C54: any number of threads that execute any commands, starting at any state that the program of C54 can
get into, end up in a state that the program of C54 can get into, with the same tracker, the same writes and printed addresses, and the
same transactions handed to the network, in the same order -/
theorem C84_as_C54 (env : Env D Key Ak Sec XPrv Msg T) (base : Tracker Keychain D P T) (w : World D P T) (hw : Run env base w)
    (l : List (List (Command P T))) (ms : List (Move (Reply P T))) (s : State (Shared D P T) (Reply P T) Request)
    (h : Reaches env l ⟨w.tracker, []⟩ ms s) (hp : s.poisoned .tracker = false) (hh : s.holder .tracker = none) :
    ∃ w' es, Run env base w' ∧ w'.tracker = s.shared.tracker ∧ w'.trace = w.trace ++ es ∧
      es.filter underLock = s.shared.trace ∧ handed es = asked s.requests := by
  obtain ⟨am, h1⟩ := C84_atomic env l _ ms s h hp hh
  obtain ⟨w', h2, h3⟩ := rel_run (tr0 := w.trace) am (w := w) hw
    ⟨rfl, ⟨[], (List.append_nil _).symm, rfl, rfl⟩, w.jobs.map (fun j => (0, j)), by simp, fun i => by
      show Phase env _ i (threadsOf env l i)
      unfold threadsOf
      split
      · exact .idle _
      · exact .idle []⟩ h1
  obtain ⟨es, e1, e2, e3⟩ := h3.trace
  exact ⟨w', es, h2, h3.tracker, e1, e2, e3⟩

/-- **C84** a kill of the whole program at any moment, also while a thread is in the middle of a section (which would not have panicked):
a new start from what the threads wrote until then gives a state that the program of C54 can get into -/
theorem C84_killed (env : Env D Key Ak Sec XPrv Msg T) (base : Tracker Keychain D P T) (w : World D P T) (hw : Run env base w)
    (l : List (List (Command P T))) (ms : List (Move (Reply P T))) (s : State (Shared D P T) (Reply P T) Request)
    (h : Reaches env l ⟨w.tracker, []⟩ ms s) (hp : s.poisoned .tracker = false)
    (hend : ∀ j, s.holder .tracker = some j → (toEnd s.shared (s.prog j)).isSome = true) :
    ∃ es, es.filter underLock = s.shared.trace ∧ handed es = asked s.requests ∧
      ∀ w', reload base (w.trace ++ es) = some w' → Run env base w' := by
  obtain ⟨am, c, h1, h2⟩ := run_sim (le := Grew) grew_refl List.IsPrefix.trans ms (c := ⟨⟨w.tracker, []⟩, [], threadsOf env l⟩)
    (init_inv (keep := traceOf) _ (threads_shaped env l)) (threads_mono env l) ⟨rfl, rfl, fun _ => rfl⟩ h hp
  obtain ⟨w1, h3, h4⟩ := rel_run (tr0 := w.trace) am (w := w) hw
    ⟨rfl, ⟨[], (List.append_nil _).symm, rfl, rfl⟩, w.jobs.map (fun j => (0, j)), by simp, fun i => by
      show Phase env _ i (threadsOf env l i)
      unfold threadsOf
      split
      · exact .idle _
      · exact .idle []⟩ h1
  obtain ⟨es, e1, e2, e3⟩ := h4.trace
  unfold Sim at h2
  obtain ⟨hrq, h2⟩ := h2
  cases hh : s.holder .tracker with
  | none =>
    rw [hh] at h2
    refine ⟨es, by rw [e2, h2.1], by rw [e3, hrq], fun w' hr => .step .restart h3 ?_⟩
    show reload base w1.trace = _
    rw [e1]; exact hr
  | some j =>
    rw [hh] at h2
    obtain ⟨-, k, hk, hte, hle⟩ := h2
    obtain ⟨e, he⟩ := Option.isSome_iff_exists.1 (hend j hh)
    have hmono : Mono Grew (s.prog j) := by
      have : ∀ (ms : List (Move (Reply P T))) (s0 s1 : State (Shared D P T) (Reply P T) Request), (∀ i, Mono Grew (s0.prog i)) →
          s0.run ms = some s1 → ∀ i, Mono Grew (s1.prog i) := by
        intro ms
        induction ms with
        | nil => intro s0 s1 h0 hr; cases hr; exact h0
        | cons m ms ih =>
          intro s0 s1 h0 hr
          unfold State.run at hr
          split at hr
          · cases hr
          · next s2 hm => exact ih s2 s1 (move_mono h0 hm) hr
      exact this ms _ s (threads_mono env l) h j
    have hle2 : Grew s.shared e.1 := toEnd_le grew_refl List.IsPrefix.trans _ hmono he
    obtain ⟨w2, es2, ha, g1, g2, g3, -⟩ := rel_act base h4 (i := j) (e := e) (by rw [hk]; exact hte.trans he)
    obtain ⟨d, hd⟩ := hle
    have hdp : d <+: es2 := by
      obtain ⟨d', hd'⟩ := hle2
      refine ⟨d', List.append_cancel_left (as := c.shared.trace) ?_⟩
      rw [← List.append_assoc, hd, hd', g2]
    refine ⟨es ++ d, ?_, ?_, fun w' hr => ?_⟩
    · rw [List.filter_append, e2, ← hd, List.filter_eq_self.2 (fun x hx => g3 x (hdp.subset hx))]
    · have h0 := handed_underLock (fun x hx => g3 x (hdp.subset hx))
      unfold handed at e3 h0 ⊢
      rw [List.filterMap_append, h0, e3, hrq, List.append_nil]
    · have htake : w2.trace.take (w1.trace.length + d.length) = w.trace ++ (es ++ d) := by
        rw [g1, List.take_length_add_append, ← List.prefix_iff_eq_take.1 hdp, e1, List.append_assoc]
      rcases ha with rfl | ⟨a, ha⟩
      · refine .step .restart h3 ?_
        have hd0 : d = [] := by
          have : es2 = [] := List.append_cancel_left (as := w2.trace) (g1.symm.trans (List.append_nil _).symm)
          rw [this] at hdp; exact List.prefix_nil.1 hdp
        show reload base w2.trace = _
        rw [e1]
        rw [hd0, List.append_nil] at hr
        exact hr
      · refine .step (.crashIn a d.length) h3 ?_
        unfold step
        rw [ha]
        simp only
        rw [htake]; exact hr

/-- **C84** after a panic of a thread that held the tracker, nothing behind the locks ever changes again, and every thread that tries to
take the lock panics as well -/
theorem C84_poisoned_frozen (env : Env D Key Ak Sec XPrv Msg T) (l : List (List (Command P T))) (x : Shared D P T) (ms : List (Move (Reply P T)))
    (s : State (Shared D P T) (Reply P T) Request) (h : Reaches env l x ms s) (hp : s.poisoned .tracker = true) :
    (∀ ms' s', s.run ms' = some s' → s'.shared = s.shared ∧ s'.poisoned .tracker = true) ∧
    (∀ i k, s.prog i = .lock .tracker k → ∀ a, ∃ s', s.move (.step i a) = some s' ∧ s'.prog i = .done) := by
  constructor
  · intro ms' s' hr
    induction ms' generalizing s ms with
    | nil => cases hr; exact ⟨rfl, hp⟩
    | cons m ms' ih =>
      unfold State.run at hr
      split at hr
      · cases hr
      · next s1 hm =>
        have h' : Reaches env l x (ms ++ [m]) s1 := run_snoc ms h hm
        have hp1 : s1.poisoned .tracker = true := by
          by_contra hc
          rw [Bool.not_eq_true] at hc
          rw [poison_mono hm hc] at hp; cases hp
        obtain ⟨e1, e2⟩ := ih (ms ++ [m]) s1 h' hp1 hr
        refine ⟨e1.trans ?_, e2⟩
        by_contra hc
        obtain ⟨i, a, -, hi⟩ := (C84_protected env l x ms s s1 h m hm).1 hc
        rw [(reaches_inv h).free hp] at hi; cases hi
  · intro i k hk a
    refine ⟨s.unwind i, ?_, set_same ..⟩
    unfold State.move
    simp only [hk, (reaches_inv h).free hp, if_true, hp]

/-! ### a concrete case: a thread that reveals an address and syncs, one that sends, one that asks for an address meanwhile -/

/-- the commands of the three threads -/
def threeThreads : List (List (Command TxHeight CliTx)) :=
  [[.address .new true, .esplora true oC true], [.send exLuck 40000 1000 .largestFirst true oC true], [.address .new true, .print]]

/-- every answer: it worked, and a scan found the funding transaction -/
def goodReply : Reply TxHeight CliTx := ⟨true, exFund⟩

/-- the first thread reveals an address; while it is scanning, the third one reveals another; the first one applies what it found; the
second one prepares its transaction; while it is broadcasting, the third one looks at the balance; it ends its section before the second
one takes the lock again -/
def mixedSchedule : List Nat :=
  [0, 0, 0, 0, 0, 0, 0] ++ [0, 0, 0] ++ [2, 2, 2] ++ [0] ++ [2, 2, 2, 2] ++ [0, 0, 0, 0, 0, 0] ++ [1, 1, 1, 1, 1, 1, 1] ++ [2] ++ [1] ++ [2, 2] ++
  [1, 1, 1, 1, 1, 1]

/-- an address was printed -/
def isShown : Event TxHeight CliTx → Bool
  | .shown .. => true
  | _ => false

/-- the state that this leads to -/
def mixedState : Option (State (Shared Props.DemoDesc TxHeight CliTx) (Reply TxHeight CliTx) Request) :=
  (State.init ⟨exBase, []⟩ (threadsOf exEnv threeThreads)).run (mixedSchedule.map fun i => .step i goodReply)

example : ∃ ms s, Reaches exEnv threeThreads ⟨exBase, []⟩ ms s ∧ s.poisoned .tracker = false ∧ s.holder .tracker = none ∧
    s.requests.length = 2 ∧ (s.shared.trace.filter isShown).length = 2 ∧
    (diskOf s.shared.trace).length = 5 := by
  have h : (match mixedState with
    | some s => decide (s.poisoned .tracker = false) && decide (s.holder .tracker = none) && decide (s.requests.length = 2) &&
        decide ((s.shared.trace.filter isShown).length = 2) &&
        decide ((diskOf s.shared.trace).length = 5)
    | none => false) = true := by decide +kernel
  rcases hm : mixedState with _ | s <;> rw [hm] at h
  · cases h
  · simp only [Bool.and_eq_true, decide_eq_true_eq] at h
    obtain ⟨⟨⟨⟨h1, h2⟩, h3⟩, h4⟩, h5⟩ := h
    exact ⟨_, s, hm, h1, h2, h3, h4, h5⟩

/-- a kill in the middle of the first section, after the write and before the address is printed -/
example : ∃ ms s, Reaches exEnv threeThreads ⟨exBase, []⟩ ms s ∧ s.poisoned .tracker = false ∧ s.holder .tracker = some 0 ∧
    (toEnd s.shared (s.prog 0)).isSome = true ∧ s.shared.trace.length = 1 ∧ (reload exBase s.shared.trace).isSome = true := by
  have h : (match (State.init ⟨exBase, []⟩ (threadsOf exEnv threeThreads)).run (List.replicate 4 (.step 0 goodReply)) with
    | some s => decide (s.poisoned .tracker = false) && decide (s.holder .tracker = some 0) && (toEnd s.shared (s.prog 0)).isSome &&
        decide (s.shared.trace.length = 1) && (reload exBase s.shared.trace).isSome
    | none => false) = true := by decide +kernel
  rcases hm : (State.init ⟨exBase, []⟩ (threadsOf exEnv threeThreads)).run (List.replicate 4 (.step 0 goodReply)) with _ | s <;> rw [hm] at h
  · cases h
  · simp only [Bool.and_eq_true, decide_eq_true_eq] at h
    obtain ⟨⟨⟨⟨h1, h2⟩, h3⟩, h4⟩, h5⟩ := h
    exact ⟨_, s, hm, h1, h2, h3, h4, h5⟩

/-- a panic in the section of the first thread: from then on the lock is poisoned -/
example : ∃ ms s, Reaches exEnv threeThreads ⟨exBase, []⟩ ms s ∧ s.poisoned .tracker = true ∧ ∃ k, s.prog 1 = .lock .tracker k := by
  refine ⟨[.step 0 goodReply, .step 0 goodReply, .panic 0], _, rfl, rfl, ?_⟩
  exact ⟨_, rfl⟩

end Verif.Locks
