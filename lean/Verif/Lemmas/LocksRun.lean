import Verif.Lemmas.LocksCli
import Verif.Spec.Cli

/-!
# Threads whose sections are single steps are runs of C54
-/

namespace Verif.Locks
open Verif Verif.Cli Verif.Spec
variable {D Key Ak Sec XPrv Msg P T : Type}
variable [DecidableEq Key] [DecidableEq Ak]
variable [DecidableEq D] [DescriptorOps D]
variable [LinearOrder P] [ChainPosition P] [AsTransaction T] [LinearOrder T]

/-! ### the sections are the actions of C54 -/

theorem address_sec (cmd : AddressCmd) (ok : Bool) (s : Shared D P T) (q : Code D P T) :
    sectionOf s ((address cmd ok).andThen q) = (runAddressCmd s.tracker cmd ok).map fun r => (⟨r.1, s.trace ++ r.2.1⟩, q) := by
  unfold address runAddressCmd
  simp only [Prog.andThen, sectionOf, toEnd]
  rcases addressSpk s.tracker cmd with _ | _ | ⟨index, ⟨i, spk⟩, additions⟩
  · rfl
  · simp [Prog.andThen, toEnd]
  · simp only [Prog.andThen, toEnd]
    split
    · simp [Prog.andThen, toEnd, Shared.emit]
    · simp [Prog.andThen, toEnd, Shared.emit]

theorem print_sec (s : Shared D P T) (q : Code D P T) : sectionOf s (print.andThen q) = some (s, q) := rfl

theorem sendEnd_true_sec (env : Env D Key Ak Sec XPrv Msg T) (f : InFlight) (o : Orders P T) (ok : Bool) (s : Shared D P T) (q : Code D P T) :
    sectionOf s ((sendEnd env f o ok true).andThen q) = (sendSucceeded env s.tracker f o ok).map fun r => (⟨r.1, s.trace ++ r.2.1⟩, q) := by
  unfold sendEnd sendSucceeded
  simp only [if_true, Prog.andThen, sectionOf, toEnd]
  rcases s.tracker.insertTx (env.toT f.tx) (ChainPosition.maxOrd .unconfirmed) o with _ | ⟨t', (e | e) | cs⟩
  · rfl
  · cases e <;> simp [Prog.andThen, toEnd]
  · simp [Prog.andThen, toEnd]
  · simp [Prog.andThen, toEnd, Shared.emit]

theorem sendEnd_false_sec (env : Env D Key Ak Sec XPrv Msg T) (f : InFlight) (o : Orders P T) (ok : Bool) (s : Shared D P T) (q : Code D P T) :
    sectionOf s ((sendEnd env f o ok false).andThen q) = some (⟨sendFailed s.tracker f, s.trace⟩, q) := rfl

/-- what a thread does after the first section of `Send` -/
def afterPrepare (env : Env D Key Ak Sec XPrv Msg T) (o : Orders P T) (ok : Bool) (q : Code D P T) : Except CmdErr InFlight → Code D P T
  | .ok f => (sendTail env f o ok).andThen q
  | .error _ => q

theorem send_sec (env : Env D Key Ak Sec XPrv Msg T) (luck : Luck) (value : Nat) (payee : Script) (algo : Algo) (ok : Bool)
    (o : Orders P T) (ok' : Bool) (s : Shared D P T) (q : Code D P T) :
    sectionOf s ((send env luck value payee algo ok o ok').andThen q) =
      (sendPrepare env luck s.tracker value payee algo ok).map fun r => (⟨r.1, s.trace ++ r.2.1⟩, afterPrepare env o ok' q r.2.2) := by
  unfold send sendPrepare
  simp only [Prog.andThen, sectionOf, toEnd]
  rcases createTx env luck s.tracker value payee algo with _ | ⟨t', e | c⟩
  · rfl
  · simp [Prog.andThen, toEnd, afterPrepare]
  · rcases hc : c.change with _ | ⟨additions, k, i⟩
    · simp [hc, Prog.andThen, toEnd, afterPrepare]
    · simp only [hc, Prog.andThen, toEnd]
      split
      · simp [Prog.andThen, toEnd, Shared.emit, afterPrepare]
      · simp [Prog.andThen, toEnd, Shared.emit, afterPrepare]

theorem electrumApply_sec (scan : KeychainScan Keychain P T) (o : Orders P T) (ok : Bool) (s : Shared D P T) (q : Code D P T) :
    sectionOf s ((electrumApply scan o ok).andThen q) = (syncElectrum s.tracker scan o ok).map fun r => (⟨r.1, s.trace ++ r.2⟩, q) := by
  unfold electrumApply syncElectrum
  simp only [Prog.andThen, sectionOf, toEnd, id]
  rcases s.tracker.determineChangeset scan o with cs | e | _
  · simp only [Prog.andThen, toEnd]
    split
    · simp only [Prog.andThen, toEnd, Shared.emit]
      rcases s.tracker.applyChangeset cs with _ | t'
      · rfl
      · simp [Prog.andThen, toEnd]
    · simp [Prog.andThen, toEnd, Shared.emit]
  · simp [Prog.andThen, toEnd]
  · rfl

theorem esploraApply_sec (first : Bool) (scan : KeychainScan Keychain P T) (o : Orders P T) (ok : Bool) (s : Shared D P T) (q : Code D P T) :
    sectionOf s ((esploraApply first scan o ok).andThen q) = (syncEsplora s.tracker scan o ok).map fun r => (⟨r.1, s.trace ++ r.2⟩, q) := by
  unfold esploraApply syncEsplora
  cases first
  · simp only [Bool.false_eq_true, if_false, Prog.andThen, sectionOf, toEnd]
    rcases s.tracker.applyUpdate scan o with _ | ⟨t', e | cs⟩
    · rfl
    · simp [Prog.andThen, toEnd]
    · simp [Prog.andThen, toEnd, Shared.emit]
  · simp only [if_true, Prog.andThen, sectionOf, toEnd]
    rcases s.tracker.applyUpdate scan o with _ | ⟨t', e | cs⟩
    · rfl
    · simp [Prog.andThen, toEnd]
    · simp [Prog.andThen, toEnd, Shared.emit]

/-! ### the simulation -/

/-- what a thread is going to do, and the job of C54 that is its own if it is inside of a `Send` -/
inductive Phase (env : Env D Key Ak Sec XPrv Msg T) (owners : List (Nat × Job)) (i : Nat) : Code D P T → Prop where
  | idle (rest : List (Command P T)) : Phase env owners i (codeOf env rest)
  | tail (f : InFlight) (o : Orders P T) (ok : Bool) (rest : List (Command P T)) (h : (i, ⟨f, none⟩) ∈ owners) :
      Phase env owners i ((sendTail env f o ok).andThen (codeOf env rest))
  | ended (f : InFlight) (o : Orders P T) (ok b : Bool) (rest : List (Command P T)) (h : (i, ⟨f, some b⟩) ∈ owners) :
      Phase env owners i ((sendEnd env f o ok b).andThen (codeOf env rest))
  | electrumScan (o : Orders P T) (ok : Bool) (rest : List (Command P T)) :
      Phase env owners i ((Locks.electrumScan o ok).andThen (codeOf env rest))
  | electrumMissing (o : Orders P T) (ok : Bool) (rest : List (Command P T)) :
      Phase env owners i ((Locks.electrumMissing o ok).andThen (codeOf env rest))
  | electrumFetch (o : Orders P T) (ok : Bool) (rest : List (Command P T)) :
      Phase env owners i ((Locks.electrumFetch o ok).andThen (codeOf env rest))
  | electrumApply (scan : KeychainScan Keychain P T) (o : Orders P T) (ok : Bool) (rest : List (Command P T)) :
      Phase env owners i ((Locks.electrumApply scan o ok).andThen (codeOf env rest))
  | esploraScan (first : Bool) (o : Orders P T) (ok : Bool) (rest : List (Command P T)) :
      Phase env owners i ((Locks.esploraScan first o ok).andThen (codeOf env rest))
  | esploraApply (first : Bool) (scan : KeychainScan Keychain P T) (o : Orders P T) (ok : Bool) (rest : List (Command P T)) :
      Phase env owners i ((Locks.esploraApply first scan o ok).andThen (codeOf env rest))

/-- other threads do not mind a change of the jobs that are not theirs -/
theorem Phase.other {env : Env D Key Ak Sec XPrv Msg T} {owners owners' : List (Nat × Job)} {i : Nat} {p : Code D P T}
    (h : Phase env owners i p) (hs : ∀ j, (i, j) ∈ owners → (i, j) ∈ owners') : Phase env owners' i p := by
  cases h with
  | idle rest => exact .idle rest
  | tail f o ok rest h => exact .tail f o ok rest (hs _ h)
  | ended f o ok b rest h => exact .ended f o ok b rest (hs _ h)
  | electrumScan o ok rest => exact .electrumScan o ok rest
  | electrumMissing o ok rest => exact .electrumMissing o ok rest
  | electrumFetch o ok rest => exact .electrumFetch o ok rest
  | electrumApply scan o ok rest => exact .electrumApply scan o ok rest
  | esploraScan first o ok rest => exact .esploraScan first o ok rest
  | esploraApply first scan o ok rest => exact .esploraApply first scan o ok rest

/-- the threads and the state of C54 -/
structure Rel (env : Env D Key Ak Sec XPrv Msg T) (tr0 : List (Event P T)) (c : Atomic (Shared D P T) (Reply P T) Request)
    (w : World D P T) : Prop where
  tracker : w.tracker = c.shared.tracker
  trace : ∃ es, w.trace = tr0 ++ es ∧ es.filter underLock = c.shared.trace ∧ handed es = asked c.requests
  jobs : ∃ owners : List (Nat × Job), w.jobs = owners.map Prod.snd ∧ ∀ i, Phase env owners i (c.prog i)

/-- the effects of a section do not include a broadcast -/
theorem store_underLock (cs : KeychainChangeSet Keychain P T) (ok : Bool) : ∀ e ∈ (Cli.store cs ok).1, underLock e = true := by
  unfold Cli.store
  intro e he
  split at he
  · cases he
  · split at he
    · rw [List.mem_singleton] at he; subst he; rfl
    · rw [List.mem_singleton] at he; subst he; rfl

theorem handed_underLock {es : List (Event P T)} (h : ∀ e ∈ es, underLock e = true) : handed es = [] := by
  unfold handed
  rw [List.filterMap_eq_nil_iff]
  intro e he
  have := h e he
  cases e <;> first | rfl | cases this

theorem trace_section {tr0 tr tr' st : List (Event P T)} {rs : List (Nat × Request)}
    (h : ∃ es, tr = tr0 ++ es ∧ es.filter underLock = st ∧ handed es = asked rs) (h' : ∀ e ∈ tr', underLock e = true) :
    ∃ es, tr ++ tr' = tr0 ++ es ∧ es.filter underLock = st ++ tr' ∧ handed es = asked rs := by
  obtain ⟨es, h1, h2, h3⟩ := h
  refine ⟨es ++ tr', by rw [h1, List.append_assoc], ?_, ?_⟩
  · rw [List.filter_append, h2, List.filter_eq_self.2 h']
  · unfold handed at h3 ⊢
    rw [List.filterMap_append, h3]
    have := handed_underLock h'
    unfold handed at this
    rw [this, List.append_nil]

theorem phase_set {env : Env D Key Ak Sec XPrv Msg T} {owners owners' : List (Nat × Job)} {prog : Nat → Code D P T} {i : Nat} {p : Code D P T}
    (h : ∀ j, Phase env owners j (prog j)) (hs : ∀ j, j ≠ i → ∀ x, (j, x) ∈ owners → (j, x) ∈ owners') (hp : Phase env owners' i p) (j : Nat) :
    Phase env owners' j (set prog i p j) := by
  by_cases hj : j = i
  · subst hj; rw [set_same]; exact hp
  · rw [set_ne _ _ hj]; exact (h j).other (hs j hj)

theorem mem_eraseIdx_other {owners : List (Nat × Job)} {n i : Nat} {x : Job} (hn : owners[n]? = some (i, x)) {j : Nat} (hj : j ≠ i) {y : Job}
    (hy : (j, y) ∈ owners) : (j, y) ∈ owners.eraseIdx n := by
  obtain ⟨m, hm⟩ := List.mem_iff_getElem?.1 hy
  refine List.mem_eraseIdx_iff_getElem?.2 ⟨m, ?_, hm⟩
  rintro rfl
  rw [hn] at hm; cases hm; exact hj rfl

theorem mem_set_other {owners : List (Nat × Job)} {n i : Nat} {x x' : Job} (hn : owners[n]? = some (i, x)) {j : Nat} (hj : j ≠ i) {y : Job}
    (hy : (j, y) ∈ owners) : (j, y) ∈ owners.set n (i, x') := by
  obtain ⟨m, hm⟩ := List.mem_iff_getElem?.1 hy
  refine List.mem_iff_getElem?.2 ⟨m, ?_⟩
  rw [List.getElem?_set]
  split
  · next e =>
    subst e
    rw [hn] at hm; cases hm; exact absurd rfl hj
  · exact hm

theorem runAddressCmd_underLock {t : Tracker Keychain D P T} {cmd : AddressCmd} {ok : Bool} {r} (h : runAddressCmd t cmd ok = some r) :
    ∀ e ∈ r.2.1, underLock e = true := by
  unfold runAddressCmd at h
  split at h
  · cases h
  · cases h; intro e he; cases he
  · simp only at h
    split at h
    · cases h
      intro e he
      rcases List.mem_append.1 he with he | he
      · exact store_underLock _ _ e he
      · rw [List.mem_singleton] at he; subst he; rfl
    · cases h; exact store_underLock _ _

theorem sendPrepare_underLock {env : Env D Key Ak Sec XPrv Msg T} {luck : Luck} {t : Tracker Keychain D P T} {value : Nat} {payee : Script}
    {algo : Algo} {ok : Bool} {r} (h : sendPrepare env luck t value payee algo ok = some r) : ∀ e ∈ r.2.1, underLock e = true := by
  unfold sendPrepare at h
  split at h
  · cases h
  · cases h; intro e he; cases he
  · split at h
    · cases h; intro e he; cases he
    · simp only at h
      split at h
      · cases h; exact store_underLock _ _
      · cases h; exact store_underLock _ _

theorem sendSucceeded_underLock {env : Env D Key Ak Sec XPrv Msg T} {t : Tracker Keychain D P T} {f : InFlight} {o : Orders P T} {ok : Bool} {r}
    (h : sendSucceeded env t f o ok = some r) : ∀ e ∈ r.2.1, underLock e = true := by
  unfold sendSucceeded at h
  split at h
  · cases h
  · cases h; exact store_underLock _ _
  · cases h
  · cases h; intro e he; cases he
  · cases h; intro e he; cases he

theorem syncElectrum_underLock {t : Tracker Keychain D P T} {scan : KeychainScan Keychain P T} {o : Orders P T} {ok : Bool} {r}
    (h : syncElectrum t scan o ok = some r) : ∀ e ∈ r.2, underLock e = true := by
  unfold syncElectrum at h
  split at h
  · cases h
  · cases h; intro e he; cases he
  · simp only at h
    split at h
    · rw [Option.map_eq_some_iff] at h
      obtain ⟨t', -, rfl⟩ := h
      exact store_underLock _ _
    · cases h; exact store_underLock _ _

theorem syncEsplora_underLock {t : Tracker Keychain D P T} {scan : KeychainScan Keychain P T} {o : Orders P T} {ok : Bool} {r}
    (h : syncEsplora t scan o ok = some r) : ∀ e ∈ r.2, underLock e = true := by
  unfold syncEsplora at h
  split at h
  · cases h
  · cases h; intro e he; cases he
  · cases h; exact store_underLock _ _

section
variable {env : Env D Key Ak Sec XPrv Msg T} {base : Tracker Keychain D P T} {tr0 : List (Event P T)}
variable {c : Atomic (Shared D P T) (Reply P T) Request} {w : World D P T}

/-- a section that belongs to an action of C54 and leaves the jobs alone -/
theorem rel_same (hr : Rel env tr0 c w) {i : Nat} {rest : List (Command P T)} {t : Tracker Keychain D P T} {es : List (Event P T)}
    (h' : ∀ e ∈ es, underLock e = true) :
    Rel env tr0 ⟨⟨t, c.shared.trace ++ es⟩, c.requests, set c.prog i (codeOf env rest)⟩ { w with tracker := t, trace := w.trace ++ es } := by
  obtain ⟨owners, ho, hp⟩ := hr.jobs
  exact ⟨rfl, trace_section hr.trace h', owners, ho, phase_set hp (fun _ _ _ h => h) (.idle rest)⟩

/-- a section that only reads -/
theorem rel_read (hr : Rel env tr0 c w) {i : Nat} {p : Code D P T} (hp : ∀ owners, Phase env owners i p) :
    Rel env tr0 ⟨c.shared, c.requests, set c.prog i p⟩ w := by
  obtain ⟨owners, ho, hp'⟩ := hr.jobs
  exact ⟨hr.tracker, hr.trace, owners, ho, phase_set hp' (fun _ _ _ h => h) (hp owners)⟩

theorem rel_act (base : Tracker Keychain D P T) (hr : Rel env tr0 c w) {i : Nat} {e : Shared D P T × Code D P T}
    (he : sectionOf c.shared (c.prog i) = some e) :
    ∃ w' es, (w' = w ∨ ∃ a, step env base w a = some w') ∧ w'.trace = w.trace ++ es ∧ e.1.trace = c.shared.trace ++ es ∧
      (∀ e ∈ es, underLock e = true) ∧ Rel env tr0 { c with shared := e.1, prog := set c.prog i e.2 } w' := by
  obtain ⟨owners, ho, hp⟩ := hr.jobs
  have hi := hp i
  generalize c.prog i = p at hi he
  have htr := hr.tracker
  cases hi with
  | idle rest =>
    cases rest with
    | nil => cases he
    | cons cmd rest =>
      change sectionOf c.shared ((cmd.code env).andThen (codeOf env rest)) = some e at he
      cases cmd with
      | address cmd ok =>
        have he := (address_sec cmd ok c.shared (codeOf env rest)).symm.trans he
        rw [Option.map_eq_some_iff] at he
        obtain ⟨r, h1, rfl⟩ := he
        refine ⟨_, _, .inr ⟨.address cmd ok, ?_⟩, rfl, rfl, runAddressCmd_underLock h1, rel_same hr (runAddressCmd_underLock h1)⟩
        unfold step
        rw [htr, h1]
      | print =>
        cases he
        exact ⟨w, [], .inl rfl, (List.append_nil _).symm, (List.append_nil _).symm, (fun _ h => by cases h), rel_read hr fun _ => .idle rest⟩
      | send luck value payee algo ok o ok' =>
        have he := (send_sec env luck value payee algo ok o ok' c.shared (codeOf env rest)).symm.trans he
        rw [Option.map_eq_some_iff] at he
        obtain ⟨⟨t, es, x⟩, h1, rfl⟩ := he
        cases x with
        | error x =>
          refine ⟨_, _, .inr ⟨.sendPrepare luck value payee algo ok, ?_⟩, rfl, rfl, sendPrepare_underLock h1,
            rel_same hr (sendPrepare_underLock h1)⟩
          unfold step
          rw [htr, h1]
        | ok f =>
          refine ⟨⟨t, w.jobs ++ [⟨f, none⟩], w.trace ++ es⟩, es, .inr ⟨.sendPrepare luck value payee algo ok, ?_⟩, rfl, rfl,
            sendPrepare_underLock h1, ?_⟩
          · unfold step
            rw [htr, h1]
          · refine ⟨rfl, trace_section hr.trace (sendPrepare_underLock h1), owners ++ [(i, ⟨f, none⟩)], ?_, ?_⟩
            · rw [ho, List.map_append]; rfl
            · exact phase_set hp (fun _ _ _ h => List.mem_append_left _ h)
                (.tail f o ok' rest (List.mem_append_right _ (List.mem_singleton.2 rfl)))
      | electrum o ok =>
        cases he
        exact ⟨w, [], .inl rfl, (List.append_nil _).symm, (List.append_nil _).symm, (fun _ h => by cases h), rel_read hr fun _ => .electrumScan o ok rest⟩
      | esplora first o ok =>
        cases he
        exact ⟨w, [], .inl rfl, (List.append_nil _).symm, (List.append_nil _).symm, (fun _ h => by cases h), rel_read hr fun _ => .esploraScan first o ok rest⟩
  | tail f o ok rest h => cases he
  | ended f o ok b rest h =>
    obtain ⟨n, hn⟩ := List.mem_iff_getElem?.1 h
    have hj : w.jobs[n]? = some ⟨f, some b⟩ := by rw [ho, List.getElem?_map, hn]; rfl
    have hrest : ∀ j, Phase env (owners.eraseIdx n) j (set c.prog i (codeOf env rest) j) :=
      phase_set hp (fun j hj x hx => mem_eraseIdx_other hn hj hx) (.idle rest)
    have hmap : w.jobs.eraseIdx n = (owners.eraseIdx n).map Prod.snd := by rw [ho, List.eraseIdx_map]
    cases b with
    | true =>
      have he := (sendEnd_true_sec env f o ok c.shared (codeOf env rest)).symm.trans he
      rw [Option.map_eq_some_iff] at he
      obtain ⟨⟨t, es, x⟩, h1, rfl⟩ := he
      refine ⟨⟨t, w.jobs.eraseIdx n, w.trace ++ es⟩, es, .inr ⟨.sendFinish n o ok, ?_⟩, rfl, rfl, sendSucceeded_underLock h1, rfl,
        trace_section hr.trace (sendSucceeded_underLock h1), _, hmap, hrest⟩
      unfold step
      rw [hj, htr]
      simp only [h1]
    | false =>
      have he := (sendEnd_false_sec env f o ok c.shared (codeOf env rest)).symm.trans he
      cases he
      refine ⟨⟨sendFailed w.tracker f, w.jobs.eraseIdx n, w.trace⟩, [], .inr ⟨.sendFinish n o ok, ?_⟩, (List.append_nil _).symm,
        (List.append_nil _).symm, (fun _ h => by cases h), by rw [htr], hr.trace, _, hmap, hrest⟩
      unfold step
      rw [hj]
  | electrumScan o ok rest => cases he
  | electrumMissing o ok rest =>
    cases he
    exact ⟨w, [], .inl rfl, (List.append_nil _).symm, (List.append_nil _).symm, (fun _ h => by cases h), rel_read hr fun _ => .electrumFetch o ok rest⟩
  | electrumFetch o ok rest => cases he
  | electrumApply scan o ok rest =>
    rw [electrumApply_sec, Option.map_eq_some_iff] at he
    obtain ⟨r, h1, rfl⟩ := he
    refine ⟨_, _, .inr ⟨.syncElectrum scan o ok, ?_⟩, rfl, rfl, syncElectrum_underLock h1, rel_same hr (syncElectrum_underLock h1)⟩
    unfold step
    rw [htr, h1]
  | esploraScan first o ok rest => cases he
  | esploraApply first scan o ok rest =>
    rw [esploraApply_sec, Option.map_eq_some_iff] at he
    obtain ⟨r, h1, rfl⟩ := he
    refine ⟨_, _, .inr ⟨.syncEsplora scan o ok, ?_⟩, rfl, rfl, syncEsplora_underLock h1, rel_same hr (syncEsplora_underLock h1)⟩
    unfold step
    rw [htr, h1]

theorem rel_section (hrun : Run env base w) (hr : Rel env tr0 c w) {i : Nat} {e : Shared D P T × Code D P T}
    (he : sectionOf c.shared (c.prog i) = some e) :
    ∃ w', Run env base w' ∧ Rel env tr0 { c with shared := e.1, prog := set c.prog i e.2 } w' := by
  obtain ⟨w', es, h1, -, -, -, h2⟩ := rel_act base hr he
  rcases h1 with rfl | ⟨a, h1⟩
  · exact ⟨_, hrun, h2⟩
  · exact ⟨w', .step a hrun h1, h2⟩

theorem asked_append (rs : List (Nat × Request)) (i : Nat) (b : Request) :
    asked (rs ++ [(i, b)]) = asked rs ++ (match b with | .broadcast tx => [tx] | _ => []) := by
  unfold asked
  rw [List.filterMap_append]
  cases b <;> rfl

/-- a request that is not a broadcast -/
theorem rel_ask (hr : Rel env tr0 c w) {i : Nat} {b : Request} (hb : b = .scan ∨ b = .fetch) {p : Code D P T}
    (hp : ∀ owners, Phase env owners i p) : Rel env tr0 ⟨c.shared, c.requests ++ [(i, b)], set c.prog i p⟩ w := by
  obtain ⟨owners, ho, hp'⟩ := hr.jobs
  obtain ⟨es, h1, h2, h3⟩ := hr.trace
  refine ⟨hr.tracker, ⟨es, h1, h2, ?_⟩, owners, ho, phase_set hp' (fun _ _ _ h => h) (hp owners)⟩
  rw [asked_append, h3]
  rcases hb with rfl | rfl <;> simp

theorem rel_request (hrun : Run env base w) (hr : Rel env tr0 c w) {i : Nat} {a : Reply P T} {c' : Atomic (Shared D P T) (Reply P T) Request}
    (he : c.move (.request i a) = some c') : ∃ w', Run env base w' ∧ Rel env tr0 c' w' := by
  obtain ⟨owners, ho, hp⟩ := hr.jobs
  have hi := hp i
  simp only [Atomic.move] at he
  generalize c.prog i = p at hi he
  cases hi with
  | idle rest =>
    cases rest with
    | nil => cases he
    | cons cmd rest => cases cmd <;> cases he
  | tail f o ok rest h =>
    cases he
    obtain ⟨n, hn⟩ := List.mem_iff_getElem?.1 h
    have hj : w.jobs[n]? = some ⟨f, none⟩ := by rw [ho, List.getElem?_map, hn]; rfl
    refine ⟨{ w with jobs := w.jobs.set n ⟨f, some a.ok⟩, trace := w.trace ++ [.broadcast f.tx a.ok] }, .step (.broadcast n a.ok) hrun ?_,
      hr.tracker, ?_, owners.set n (i, ⟨f, some a.ok⟩), ?_, ?_⟩
    · unfold step
      rw [hj]
    · obtain ⟨es, h1, h2, h3⟩ := hr.trace
      refine ⟨es ++ [.broadcast f.tx a.ok], by rw [h1, List.append_assoc], ?_, ?_⟩
      · rw [List.filter_append, h2]
        exact List.append_nil _
      · rw [asked_append, ← h3]
        unfold handed
        rw [List.filterMap_append]; rfl
    · rw [ho, List.map_set]
    · refine phase_set hp (fun j hj x hx => mem_set_other hn hj hx) (.ended f o ok a.ok rest ?_)
      refine List.mem_iff_getElem?.2 ⟨n, ?_⟩
      rw [List.getElem?_set_self]
      exact (List.getElem?_eq_some_iff.1 hn).1
  | ended f o ok b rest h => cases b <;> cases he
  | electrumScan o ok rest =>
    cases he
    refine ⟨w, hrun, rel_ask hr (.inl rfl) fun owners => ?_⟩
    beta_reduce
    split
    · exact .electrumMissing o ok rest
    · exact .idle rest
  | electrumMissing o ok rest => cases he
  | electrumFetch o ok rest =>
    cases he
    refine ⟨w, hrun, rel_ask hr (.inr rfl) fun owners => ?_⟩
    beta_reduce
    split
    · exact .electrumApply a.scan o ok rest
    · exact .idle rest
  | electrumApply scan o ok rest => cases he
  | esploraScan first o ok rest =>
    cases he
    refine ⟨w, hrun, rel_ask hr (.inl rfl) fun owners => ?_⟩
    beta_reduce
    split
    · exact .esploraApply first a.scan o ok rest
    · exact .idle rest
  | esploraApply first scan o ok rest => cases first <;> cases he

theorem rel_move (hrun : Run env base w) (hr : Rel env tr0 c w) {m : AMove (Reply P T)} {c' : Atomic (Shared D P T) (Reply P T) Request}
    (he : c.move m = some c') : ∃ w', Run env base w' ∧ Rel env tr0 c' w' := by
  cases m with
  | section_ i =>
    unfold Atomic.move at he
    rw [Option.map_eq_some_iff] at he
    obtain ⟨e, h1, rfl⟩ := he
    exact rel_section hrun hr h1
  | request i a => exact rel_request hrun hr he
  | stop i =>
    cases he
    exact ⟨w, hrun, rel_read hr fun _ => .idle []⟩

end

theorem rel_run {env : Env D Key Ak Sec XPrv Msg T} {base : Tracker Keychain D P T} {tr0 : List (Event P T)} (l : List (AMove (Reply P T))) :
    ∀ {c c' : Atomic (Shared D P T) (Reply P T) Request} {w : World D P T}, Run env base w → Rel env tr0 c w → c.run l = some c' →
      ∃ w', Run env base w' ∧ Rel env tr0 c' w' := by
  induction l with
  | nil => intro c c' w hrun hr h; cases h; exact ⟨w, hrun, hr⟩
  | cons m l ih =>
    intro c c' w hrun hr h
    unfold Atomic.run at h
    split at h
    · cases h
    · next c1 hm =>
      obtain ⟨w1, h1, h2⟩ := rel_move hrun hr hm
      exact ih h1 h2 h

end Verif.Locks
