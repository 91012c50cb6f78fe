import Verif.Lemmas.Locks

/-!
# The commands of the example programs as threads
-/

namespace Verif.Locks
open Verif Verif.Cli
variable {D Key Ak Sec XPrv Msg P T : Type}
variable [DecidableEq Key] [DecidableEq Ak]
variable [DecidableEq D] [DescriptorOps D]
variable [LinearOrder P] [ChainPosition P] [AsTransaction T] [LinearOrder T]

section
variable {σ α β τ : Type} {keep : σ → τ}
theorem sh_lt {k : Prog σ α β} (h : Shaped keep k .tracker) : Shaped keep (.lock .tracker k) .none_ := ⟨rfl, h⟩
theorem sh_ls {k : Prog σ α β} (h : Shaped keep k .both) : Shaped keep (.lock .store k) .tracker := ⟨rfl, h⟩
theorem sh_ut {k : Prog σ α β} (h : Shaped keep k .none_) : Shaped keep (.unlock .tracker k) .tracker := ⟨rfl, h⟩
theorem sh_us {k : Prog σ α β} (h : Shaped keep k .tracker) : Shaped keep (.unlock .store k) .both := ⟨rfl, h⟩
theorem sh_read {f : σ → σ} {k : σ → Prog σ α β} (hf : ∀ s, keep (f s) = keep s) (h : ∀ s, Shaped keep (k s) .tracker) :
    Shaped keep (.use f k) .tracker := ⟨by simp, fun _ => hf, h⟩
theorem sh_write {f : σ → σ} {k : σ → Prog σ α β} (h : ∀ s, Shaped keep (k s) .both) :
    Shaped keep (.use f k) .both := ⟨by simp, fun h => (by cases h), h⟩
theorem sh_net {b : β} {k : α → Prog σ α β} (h : ∀ a, Shaped keep (k a) .none_) : Shaped keep (.net b k) .none_ := ⟨rfl, h⟩
theorem w_lock {l : Lock} {k : Prog σ α β} {n : Nat} (h : Within k n) : Within (.lock l k) (n + 1) := ⟨Nat.le_add_left 1 n, h⟩
theorem w_unlock {l : Lock} {k : Prog σ α β} {n : Nat} (h : Within k n) : Within (.unlock l k) (n + 1) := ⟨Nat.le_add_left 1 n, h⟩
theorem w_use {f : σ → σ} {k : σ → Prog σ α β} {n : Nat} (h : ∀ s, Within (k s) n) : Within (.use f k) (n + 1) := ⟨Nat.le_add_left 1 n, h⟩
theorem w_net {b : β} {k : α → Prog σ α β} {n : Nat} (h : ∀ a, Within (k a) n) : Within (.net b k) (n + 1) := ⟨Nat.le_add_left 1 n, h⟩
end

/-- what only the holder of the store may change -/
abbrev traceOf (s : Shared D P T) : List (Event P T) := s.trace

theorem address_shaped (cmd : AddressCmd) (ok : Bool) : Shaped traceOf (address cmd ok : Code D P T) .none_ := by
  unfold address
  refine sh_lt (sh_read (fun s => ?_) fun s => ?_)
  · simp only [traceOf]; split <;> rfl
  · split
    · trivial
    · exact sh_ut rfl
    · refine sh_ls (sh_write fun _ => ?_)
      split
      · exact sh_write fun _ => sh_us (sh_ut rfl)
      · exact sh_us (sh_ut rfl)

theorem print_shaped : Shaped traceOf (print : Code D P T) .none_ := sh_lt (sh_read (fun _ => rfl) fun _ => sh_ut rfl)

theorem sendTail_shaped (env : Env D Key Ak Sec XPrv Msg T) (f : InFlight) (o : Orders P T) (ok : Bool) :
    Shaped traceOf (sendTail env f o ok : Code D P T) .none_ := by
  unfold sendTail
  refine sh_net fun r => ?_
  unfold sendEnd
  split
  · refine sh_lt (sh_read (fun s => ?_) fun s => ?_)
    · simp only [traceOf]; split <;> rfl
    · split
      · trivial
      · exact sh_ls (sh_write fun _ => sh_us (sh_ut rfl))
      · trivial
      · exact sh_ut rfl
      · exact sh_ut rfl
  · exact sh_lt (sh_read (fun _ => rfl) fun _ => sh_ut rfl)

theorem send_shaped (env : Env D Key Ak Sec XPrv Msg T) (luck : Luck) (value : Nat) (payee : Script) (algo : Algo) (ok : Bool)
    (o : Orders P T) (ok' : Bool) : Shaped traceOf (send env luck value payee algo ok o ok' : Code D P T) .none_ := by
  unfold send
  refine sh_lt (sh_read (fun s => ?_) fun s => ?_)
  · simp only [traceOf]; split <;> rfl
  · split
    · trivial
    · exact sh_ut rfl
    · split
      · exact sh_ut (sendTail_shaped ..)
      · refine sh_ls (sh_write fun _ => ?_)
        split
        · exact sh_write fun _ => sh_us (sh_ut (sendTail_shaped ..))
        · exact sh_us (sh_ut rfl)

theorem electrumApply_shaped (scan : KeychainScan Keychain P T) (o : Orders P T) (ok : Bool) :
    Shaped traceOf (electrumApply scan o ok : Code D P T) .none_ := by
  unfold electrumApply
  refine sh_lt (sh_read (fun _ => rfl) fun s => ?_)
  split
  · trivial
  · exact sh_ut rfl
  · refine sh_ls (sh_write fun _ => sh_us ?_)
    split
    · refine sh_read (fun s => ?_) fun s => ?_
      · simp only [traceOf]; split <;> rfl
      · split
        · exact sh_ut rfl
        · trivial
    · exact sh_ut rfl

theorem electrum_shaped (o : Orders P T) (ok : Bool) : Shaped traceOf (electrum o ok : Code D P T) .none_ := by
  unfold electrum
  refine sh_lt (sh_read (fun _ => rfl) fun _ => sh_ut (sh_net fun r => ?_))
  split
  · refine sh_lt (sh_read (fun _ => rfl) fun _ => sh_ut (sh_net fun r => ?_))
    split
    · exact electrumApply_shaped ..
    · rfl
  · rfl

theorem esploraApply_shaped (first : Bool) (scan : KeychainScan Keychain P T) (o : Orders P T) (ok : Bool) :
    Shaped traceOf (esploraApply first scan o ok : Code D P T) .none_ := by
  unfold esploraApply
  cases first
  · refine sh_lt (sh_read (fun s => ?_) fun s => ?_)
    · simp only [traceOf]; split <;> rfl
    · split
      · trivial
      · exact sh_ut rfl
      · exact sh_ls (sh_write fun _ => sh_us (sh_ut rfl))
  · refine sh_lt (sh_ls (sh_write fun s => ?_))
    split
    · trivial
    · exact sh_us (sh_ut rfl)
    · exact sh_write fun _ => sh_us (sh_ut rfl)

theorem esplora_shaped (first : Bool) (o : Orders P T) (ok : Bool) : Shaped traceOf (esplora first o ok : Code D P T) .none_ := by
  unfold esplora
  refine sh_lt (sh_read (fun _ => rfl) fun _ => sh_ut (sh_net fun r => ?_))
  split
  · exact esploraApply_shaped ..
  · rfl

theorem code_shaped (env : Env D Key Ak Sec XPrv Msg T) (c : Command P T) : Shaped traceOf (c.code env : Code D P T) .none_ := by
  cases c with
  | address cmd ok => exact address_shaped cmd ok
  | print => exact print_shaped
  | send luck value payee algo ok o ok' => exact send_shaped ..
  | electrum o ok => exact electrum_shaped o ok
  | esplora f o ok => exact esplora_shaped f o ok

theorem codeOf_shaped (env : Env D Key Ak Sec XPrv Msg T) (l : List (Command P T)) : Shaped traceOf (codeOf env l : Code D P T) .none_ := by
  induction l with
  | nil => rfl
  | cons c l ih => exact andThen_shaped ih _ _ (code_shaped env c)

theorem threads_shaped (env : Env D Key Ak Sec XPrv Msg T) (l : List (List (Command P T))) (i : Nat) :
    Shaped traceOf (threadsOf env l i : Code D P T) .none_ := by
  unfold threadsOf
  split
  · exact codeOf_shaped env _
  · rfl

/-! ### nothing is taken back -/

/-- nothing that was written or printed is taken back -/
abbrev Grew (s s' : Shared D P T) : Prop := s.trace <+: s'.trace

section
variable {le : Shared D P T → Shared D P T → Prop} {α β : Type}
theorem mo_use {f : Shared D P T → Shared D P T} {k : Shared D P T → Prog (Shared D P T) α β} (hf : ∀ s, le s (f s)) (h : ∀ s, Mono le (k s)) :
    Mono le (.use f k) := ⟨hf, h⟩
theorem mo_lock {l : Lock} {k : Prog (Shared D P T) α β} (h : Mono le k) : Mono le (.lock l k) := h
theorem mo_unlock {l : Lock} {k : Prog (Shared D P T) α β} (h : Mono le k) : Mono le (.unlock l k) := h
theorem mo_net {b : β} {k : α → Prog (Shared D P T) α β} (h : ∀ a, Mono le (k a)) : Mono le (.net b k) := h
end

theorem grew_refl (s : Shared D P T) : Grew s s := List.prefix_refl _
theorem grew_emit (s : Shared D P T) (es : List (Event P T)) : Grew s (s.emit es) := List.prefix_append _ _

theorem address_mono (cmd : AddressCmd) (ok : Bool) : Mono Grew (address cmd ok : Code D P T) := by
  unfold address
  refine mo_lock (mo_use (fun s => ?_) fun s => ?_)
  · split <;> exact List.prefix_refl _
  · split
    · trivial
    · trivial
    · refine mo_lock (mo_use (fun s => grew_emit _ _) fun _ => ?_)
      split
      · exact mo_use (fun s => grew_emit _ _) fun _ => trivial
      · trivial

theorem sendTail_mono (env : Env D Key Ak Sec XPrv Msg T) (f : InFlight) (o : Orders P T) (ok : Bool) :
    Mono Grew (sendTail env f o ok : Code D P T) := by
  unfold sendTail
  refine mo_net fun r => ?_
  unfold sendEnd
  split
  · refine mo_lock (mo_use (fun s => ?_) fun s => ?_)
    · split <;> exact List.prefix_refl _
    · split
      · trivial
      · exact mo_lock (mo_use (fun s => grew_emit _ _) fun _ => trivial)
      · trivial
      · trivial
      · trivial
  · exact mo_lock (mo_use (fun s => List.prefix_refl _) fun _ => trivial)

theorem send_mono (env : Env D Key Ak Sec XPrv Msg T) (luck : Luck) (value : Nat) (payee : Script) (algo : Algo) (ok : Bool)
    (o : Orders P T) (ok' : Bool) : Mono Grew (send env luck value payee algo ok o ok' : Code D P T) := by
  unfold send
  refine mo_lock (mo_use (fun s => ?_) fun s => ?_)
  · split <;> exact List.prefix_refl _
  · split
    · trivial
    · trivial
    · split
      · exact mo_unlock (sendTail_mono env _ o ok')
      · refine mo_lock (mo_use (fun s => grew_emit _ _) fun _ => ?_)
        split
        · exact mo_use (fun s => List.prefix_refl _) fun _ => mo_unlock (mo_unlock (sendTail_mono env _ o ok'))
        · trivial

theorem electrumApply_mono (scan : KeychainScan Keychain P T) (o : Orders P T) (ok : Bool) :
    Mono Grew (electrumApply scan o ok : Code D P T) := by
  unfold electrumApply
  refine mo_lock (mo_use grew_refl fun s => ?_)
  split
  · trivial
  · trivial
  · refine mo_lock (mo_use (fun s => grew_emit _ _) fun _ => mo_unlock ?_)
    split
    · refine mo_use (fun s => ?_) fun s => ?_
      · split <;> exact List.prefix_refl _
      · split <;> trivial
    · trivial

theorem electrum_mono (o : Orders P T) (ok : Bool) : Mono Grew (electrum o ok : Code D P T) := by
  unfold electrum
  refine mo_lock (mo_use grew_refl fun _ => mo_unlock (mo_net fun r => ?_))
  split
  · refine mo_lock (mo_use grew_refl fun _ => mo_unlock (mo_net fun r => ?_))
    split
    · exact electrumApply_mono ..
    · trivial
  · trivial

theorem esploraApply_mono (first : Bool) (scan : KeychainScan Keychain P T) (o : Orders P T) (ok : Bool) :
    Mono Grew (esploraApply first scan o ok : Code D P T) := by
  unfold esploraApply
  cases first
  · refine mo_lock (mo_use (fun s => ?_) fun s => ?_)
    · split <;> exact List.prefix_refl _
    · split
      · trivial
      · trivial
      · exact mo_lock (mo_use (fun s => grew_emit _ _) fun _ => trivial)
  · refine mo_lock (mo_lock (mo_use (fun s => ?_) fun s => ?_))
    · split <;> exact List.prefix_refl _
    · split
      · trivial
      · trivial
      · exact mo_use (fun s => grew_emit _ _) fun _ => trivial

theorem esplora_mono (first : Bool) (o : Orders P T) (ok : Bool) : Mono Grew (esplora first o ok : Code D P T) := by
  unfold esplora
  refine mo_lock (mo_use grew_refl fun _ => mo_unlock (mo_net fun r => ?_))
  split
  · exact esploraApply_mono ..
  · trivial

theorem threads_mono (env : Env D Key Ak Sec XPrv Msg T) (l : List (List (Command P T))) (i : Nat) :
    Mono Grew (threadsOf env l i : Code D P T) := by
  unfold threadsOf
  split
  · next cs hcs =>
    clear hcs
    induction cs with
    | nil => trivial
    | cons c cs ih =>
      refine andThen_mono ih _ ?_
      cases c with
      | address cmd ok => exact address_mono cmd ok
      | print => exact mo_lock (mo_use grew_refl fun _ => trivial)
      | send luck value payee algo ok o ok' => exact send_mono ..
      | electrum o ok => exact electrum_mono o ok
      | esplora f o ok => exact esplora_mono f o ok
  · trivial

/-! ### the number of steps -/

theorem w_fail {σ α β : Type} {n : Nat} : Within (.fail : Prog σ α β) (n + 1) := Nat.le_add_left 1 n

theorem sendTail_within (env : Env D Key Ak Sec XPrv Msg T) (f : InFlight) (o : Orders P T) (ok : Bool) :
    Within (sendTail env f o ok : Code D P T) 7 := by
  unfold sendTail
  refine w_net fun r => ?_
  unfold sendEnd
  split
  · refine w_lock (w_use fun s => ?_)
    split
    · exact w_fail
    · exact w_lock (w_use fun _ => w_unlock (w_unlock trivial))
    · exact w_fail
    · exact w_unlock trivial
    · exact w_unlock trivial
  · exact w_lock (w_use fun _ => w_unlock trivial)

theorem electrumApply_within (scan : KeychainScan Keychain P T) (o : Orders P T) (ok : Bool) :
    Within (electrumApply scan o ok : Code D P T) 7 := by
  unfold electrumApply
  refine w_lock (w_use fun s => ?_)
  split
  · exact w_fail
  · exact w_unlock trivial
  · refine w_lock (w_use fun _ => w_unlock ?_)
    split
    · refine w_use fun s => ?_
      split
      · exact w_unlock trivial
      · exact w_fail
    · exact w_unlock trivial

theorem esploraApply_within (first : Bool) (scan : KeychainScan Keychain P T) (o : Orders P T) (ok : Bool) :
    Within (esploraApply first scan o ok : Code D P T) 7 := by
  unfold esploraApply
  cases first
  · refine w_lock (w_use fun s => ?_)
    split
    · exact w_fail
    · exact w_unlock trivial
    · exact w_lock (w_use fun _ => w_unlock (w_unlock trivial))
  · refine w_lock (w_lock (w_use fun s => ?_))
    split
    · exact w_fail
    · exact w_unlock (w_unlock trivial)
    · exact w_use fun _ => w_unlock (w_unlock trivial)

theorem code_within (env : Env D Key Ak Sec XPrv Msg T) (c : Command P T) : Within (c.code env : Code D P T) 15 := by
  unfold Command.code
  cases c with
  | address cmd ok =>
    unfold address
    refine w_lock (w_use fun s => ?_)
    split
    · exact w_fail
    · exact w_unlock trivial
    · refine w_lock (w_use fun _ => ?_)
      split
      · exact w_use fun _ => w_unlock (w_unlock trivial)
      · exact w_unlock (w_unlock trivial)
  | print => exact w_lock (w_use fun _ => w_unlock trivial)
  | send luck value payee algo ok o ok' =>
    unfold send
    refine w_lock (w_use fun s => ?_)
    split
    · exact w_fail
    · exact w_unlock trivial
    · split
      · exact w_unlock (within_mono _ (sendTail_within ..) (by decide))
      · refine w_lock (w_use fun _ => ?_)
        split
        · exact w_use fun _ => w_unlock (w_unlock (within_mono _ (sendTail_within ..) (by decide)))
        · exact w_unlock (w_unlock trivial)
  | electrum o ok =>
    unfold electrum
    refine w_lock (w_use fun _ => w_unlock (w_net fun r => ?_))
    split
    · refine w_lock (w_use fun _ => w_unlock (w_net fun r => ?_))
      split
      · exact within_mono _ (electrumApply_within ..) (by decide)
      · trivial
    · trivial
  | esplora f o ok =>
    unfold esplora
    refine w_lock (w_use fun _ => w_unlock (w_net fun r => ?_))
    split
    · exact within_mono _ (esploraApply_within ..) (by decide)
    · trivial

theorem codeOf_within (env : Env D Key Ak Sec XPrv Msg T) (l : List (Command P T)) : Within (codeOf env l : Code D P T) (15 * l.length) := by
  induction l with
  | nil => trivial
  | cons c l ih =>
    have := andThen_within ih _ 15 (code_within env c)
    rw [List.length_cons, Nat.mul_add, Nat.add_comm]
    exact this

end Verif.Locks
