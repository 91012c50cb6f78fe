import Verif.Lemmas.Process4
import Verif.Props.Cli

/-!
# Property C69: the example programs and their database file, over any number of runs

A history is any number of runs of a program, one after the other, on one file: each run may end normally, with an error, with
a panic, or by dying at any point, also in the middle of a write or of the creation of the file.
-/

set_option linter.unusedSectionVars false

namespace Verif.Cli
open Verif Verif.CoinSelect Verif.Planner Verif.Spec Verif.Props KeychainStore

variable {D Key Ak Sec XPrv Msg T P : Type} [DescriptorOps D] [DecidableEq D] [LinearOrder P] [ChainPosition P] [LawfulChainPosition P] [LinearOrder T]
  [AsTransaction T] [LawfulTx T] [DecidableEq Key]
  {cd : Codec (KeychainChangeSet Keychain P T)} {dom : KeychainChangeSet Keychain P T → Prop}
  {env : Env D Key Ak Sec XPrv Msg T} {ext : D} {int : Option D}

/-- what was visible in a history is known to whoever starts afterwards -/
theorem history_then_start (hg : GoodCodec cd dom) (hx : Derivable ext) (hx' : ∀ d ∈ int, Derivable d) {disk0 disk : Option Bytes}
    {tr : List (Event P T)} (h : History env cd ext int disk0 tr disk) (hd : ∀ c, Event.stored c ∈ tr → dom c) {ev : Event P T}
    (hm : ev ∈ tr) (hv : Visible ev) (cp : Nat) :
    (∀ e, (start (P := P) (T := T) cd cp ext int disk).2 ≠ .refused e) ∧
    ∀ t e f, (start cd cp ext int disk).2 = .running t e f → KnownBy t ev := by
  obtain ⟨l, e, h1, p, ⟨r, rfl⟩, cp', base', t', h2, h3, h4⟩ := history_known hg hx hx' h hd ev hm hv
  obtain ⟨base, hb, -, -, -, hu⟩ := initTracker_some (P := P) (T := T) cp ext int
  obtain ⟨f, tl, -, -, -, h5⟩ := start_found hg hb h1
  have hi : base.txoutIndex = base'.txoutIndex := (hu cp' base' h2).symm
  obtain ⟨t1, h6, h7⟩ := replay_index hi h3
  rw [replay_append, h6, Option.bind_some] at h5
  have hbo := initTracker_base hx hx' hb
  have ht1 := reload_ok hbo h6
  have hk : KnownBy t1 ev := by
    cases ev with
    | shown k i spk => show Knows _ _ _ _; unfold Knows; rw [h7]; exact h4
    | broadcast tx ok =>
      intro out ho
      obtain ⟨k, i, hk⟩ := h4 out ho
      refine ⟨k, i, ?_⟩
      unfold Knows; rw [h7]; exact hk
    | _ => trivial
  rw [h5]
  cases hr : t1.replay r with
  | none => exact ⟨(fun e h => by cases h), (fun t e f h => by cases h)⟩
  | some t2 =>
    refine ⟨(fun e h => by cases h), fun t e f h => ?_⟩
    cases h
    exact hk.grew ht1.reach (ht1.derivable hbo) (replay_grew hr)

/-- **C69** an address that was shown to the user is never forgotten: whatever happened since then, a later start is not refused,
and if it comes up it has that index revealed and watches that script -/
theorem C69_shown_known (hg : GoodCodec cd dom) (hx : Derivable ext) (hx' : ∀ d ∈ int, Derivable d) {disk0 disk : Option Bytes}
    {tr : List (Event P T)} (h : History env cd ext int disk0 tr disk) (hd : ∀ c, Event.stored c ∈ tr → dom c) {k i spk}
    (hm : Event.shown k i spk ∈ tr) (cp : Nat) :
    (∀ e, (start (P := P) (T := T) cd cp ext int disk).2 ≠ .refused e) ∧
    ∀ t e f, (start cd cp ext int disk).2 = .running t e f → Knows t k i spk :=
  history_then_start hg hx hx' h hd hm trivial cp

/-- **C69** change is never lost: a later start knows the script of every output, after the payment, of every transaction that
was handed to the network, whether the network took it or not -/
theorem C69_change_known (hg : GoodCodec cd dom) (hx : Derivable ext) (hx' : ∀ d ∈ int, Derivable d) {disk0 disk : Option Bytes}
    {tr : List (Event P T)} (h : History env cd ext int disk0 tr disk) (hd : ∀ c, Event.stored c ∈ tr → dom c) {tx : BuiltTx} {ok : Bool}
    (hm : Event.broadcast tx ok ∈ tr) (cp : Nat) :
    (∀ e, (start (P := P) (T := T) cd cp ext int disk).2 ≠ .refused e) ∧
    ∀ t e f, (start cd cp ext int disk).2 = .running t e f → ∀ out ∈ tx.output.tail, ∃ k i, Knows t k i out.spk :=
  history_then_start hg hx hx' h hd hm trivial cp

/-- **C69** what was written stays: the changesets that were in the file at first are still its first ones, and all those whose
write succeeded since then follow in their order.  The exception is a file that did not exist and whose creation died. -/
theorem C69_written_kept (hg : GoodCodec cd dom) {disk0 disk : Option Bytes} {l0 e0} (h0 : found cd disk0 = some (l0, e0))
    {tr : List (Event P T)} (h : History env cd ext int disk0 tr disk) (hd : ∀ c, Event.stored c ∈ tr → dom c) :
    (tr = [] ∧ found cd disk = none ∧ disk0 = none) ∨
    ∃ l e, found cd disk = some (l, e) ∧ l0 <+: l ∧ (l0 ++ diskOf tr).Sublist l :=
  history_stored hg h0 h hd

/-- **C69** nothing else gets into the file: without a double fault, the file has the changesets whose write succeeded, and perhaps
some of those whose write died or failed, in order and nothing more; or its creation died -/
theorem C69_log (hg : GoodCodec cd dom) {tr : List (Event P T)} {disk : Option Bytes} (h : CleanHistory env cd ext int tr disk)
    (hd : ∀ c, Event.stored c ∈ tr ∨ Event.storeFailed c ∈ tr → dom c) :
    (∃ l e, found cd disk = some (l, e) ∧ Survives tr l) ∨ (tr = [] ∧ ∃ k, k < 12 ∧ disk = some (crashInCreate k)) := by
  rcases clean_log hg h hd with h | ⟨h1, k, h2, h3⟩
  · exact .inl h
  · exact .inr ⟨h1, k, h2, by simpa using h3⟩

/-- **C69** the program comes up again: without a double fault, and if what was written has only indices that can be derived, the
next start neither panics nor refuses the file, unless the creation of the file died -/
theorem C69_starts (hg : GoodCodec cd dom) (hx : Derivable ext) (hx' : ∀ d ∈ int, Derivable d) {tr : List (Event P T)}
    {disk : Option Bytes} (h : CleanHistory env cd ext int tr disk)
    (hd : ∀ c, Event.stored c ∈ tr ∨ Event.storeFailed c ∈ tr → dom c ∧ InRange ext int c) 
    (hc : DistinctScripts ext int) (cp : Nat) :
    (∃ t e f, (start (P := P) (T := T) cd cp ext int disk).2 = .running t e f) ∨
    (tr = [] ∧ ∃ k, k < 12 ∧ disk = some (crashInCreate k)) := by
  rcases C69_log hg h (fun c hc => (hd c hc).1) with ⟨l, e, h1, h2⟩ | h'
  · left
    obtain ⟨base, hb, hk, -, -, -⟩ := initTracker_some (P := P) (T := T) cp ext int
    obtain ⟨f, tl, -, -, -, h5⟩ := start_found hg hb h1
    have hnc : NoCollision base.txoutIndex := fun k d i k' d' j spk h1 h2 => hc k k' d d' i j spk ((hk k d).1 h1) ((hk k' d').1 h2)
    obtain ⟨r, hr⟩ := replay_ok (log := l) (initTracker_fit hx hx' hb hnc) (by
      intro c hc k i hi
      obtain ⟨d, h3, h4⟩ := (hd c (survives_mem h2 hc)).2 k i hi
      exact ⟨d, (hk k d).2 h3, h4⟩)
    rw [hr] at h5
    rw [h5]
    exact ⟨r, e, f, rfl⟩
  · exact .inr h'

/-- **C69** a run only writes indices that can be derived, if the server names only such -/
theorem C69_in_range (hg : GoodCodec cd dom) (hx : Derivable ext) (hx' : ∀ d ∈ int, Derivable d) {cp : Nat} {disk disk' : Option Bytes}
    {t : Tracker Keychain D P T} {e f} (h : start cd cp ext int disk = (disk', .running t e f)) (cmd : Command P T) (ok1 ok2 : Bool)
    (hs : ScanInRange ext int cmd) {es : List (Event P T)} (hcut : Cut (runCommand env t cmd ok1 ok2).1 es) {c}
    (hc : Event.stored c ∈ es ∨ Event.storeFailed c ∈ es) : InRange ext int c := by
  obtain ⟨base, l, tl, h1, -, h3, -⟩ := start_running hg h
  have hbo := initTracker_base hx hx' h1
  have ht := reload_ok hbo h3
  obtain ⟨base', h4, hk, -⟩ := initTracker_some (P := P) (T := T) cp ext int
  rw [h1] at h4; cases h4
  refine command_range (env := env) ht.reach (ht.derivable hbo) (fun k d => by rw [ht.kc]; exact hk k d) cmd ok1 ok2 hs c ?_
  revert hcut
  generalize (runCommand env t cmd ok1 ok2).1 = all
  intro hcut
  cases hcut with
  | between hp => exact hc.imp (fun h => hp.subset h) (fun h => hp.subset h)
  | @writing pre c' post =>
    rcases hc with hc | hc <;> simp only [List.mem_append, List.mem_singleton, reduceCtorEq, or_false, Event.storeFailed.injEq] at hc
    · exact .inl (by simp [hc])
    · rcases hc with hc | hc
      · exact .inr (by simp [hc])
      · exact .inl (by simp [hc])

/-- **C69** a run starts where the last one stopped: if a command ends normally and its writes succeed, the next start has the
chain and the graph that the program had at its end, and, unless it was a `Send` without change, the same index but for the
marks of reserved scripts -/
theorem C69_resumes (hg : GoodCodec cd dom) (hx : Derivable ext) (hx' : ∀ d ∈ int, Derivable d) {cp : Nat} {disk disk' : Option Bytes}
    {t : Tracker Keychain D P T} {e f} (h : start cd cp ext int disk = (disk', .running t e f)) {cmd : Command P T}
    {es : List (Event P T)} {t' : Tracker Keychain D P T} (hr : runCommand env t cmd true true = (es, some t'))
    (hd : ∀ c, Event.stored c ∈ es → dom c) {f' : KeychainStore} (he : Effects cd f es f')
    {t'' : Tracker Keychain D P T} {e' f''} (h' : (start cd cp ext int (some f'.bytes)).2 = .running t'' e' f'') :
    t''.chainGraph = t'.chainGraph ∧ (WithChange cmd es → SameButMarks t'.txoutIndex t''.txoutIndex) := by
  obtain ⟨base, l, tl, h1, h2, h3, h4, h5, h6⟩ := start_running hg h
  have hbo := initTracker_base hx hx' h1
  have ht := reload_ok hbo h3
  have hsh : Shaped es := by have := shaped_command env t cmd true true; rw [hr] at this; exact this
  have hnf : ∀ c, Event.storeFailed c ∉ es := by have := command_not_failed env t cmd; rw [hr] at this; exact this
  obtain ⟨x1, x2⟩ := effects_exact hg he hsh hd hnf h4
  -- what the next start finds
  have hf : ∃ e'', found cd (some f'.bytes) = some (l ++ diskOf es, e'') := by
    by_cases h0 : diskOf es = []
    · rw [x2 h0, h0, h6, found_getD hg, h2, List.append_nil]; exact ⟨e, rfl⟩
    · exact ⟨none, (x1 h0).1⟩
  obtain ⟨e'', hf⟩ := hf
  obtain ⟨g, tl', -, -, -, h7⟩ := start_found hg h1 hf
  rw [h7] at h'
  cases hq : base.replay (l ++ diskOf es) with
  | none => rw [hq] at h'; cases h'
  | some q =>
    rw [hq] at h'
    cases h'
    constructor
    · rw [command_chain ht.limited hr]
      rw [replay_append, h3, Option.bind_some] at hq
      exact replay_chain hq
    · intro hw
      obtain ⟨q', y1, -, y3⟩ := command_sync hbo h3 hr hw
      have e1 : diskOf (loaded l ++ es) = l ++ diskOf es := by
        unfold diskOf; rw [List.filterMap_append]; congr 1; exact diskOf_loaded l
      rw [e1, hq] at y1
      cases y1
      exact y3

/-- **C69** (finding) a program that dies while it creates the file makes it useless: every later run refuses it, does nothing, and
leaves it as it is -/
theorem C69_torn_creation (hg : GoodCodec cd dom) (k : Nat) (hk : k < 12) (cp : Nat) :
    Process env cd ext int none [] (some (crashInCreate k)) ∧
    (∃ e, start (P := P) (T := T) cd cp ext int (some (crashInCreate k)) = (some (crashInCreate k), .refused e)) ∧
    ∀ (tr : List (Event P T)) disk, History env cd ext int (some (crashInCreate k)) tr disk → tr = [] ∧ disk = some (crashInCreate k) := by
  have hn : found cd (some (crashInCreate k)) = none := by
    rcases crashInCreate_found hg k with h | h
    · exact h.2
    · have : contents cd (crashInCreate k) = none := by
        unfold contents; rw [C44_crash_in_create k hk]
      exact this
  refine ⟨.creating k, ?_, ?_⟩
  · obtain ⟨base, hb, -⟩ := initTracker_some (P := P) (T := T) cp ext int
    exact start_not_found hg hb hn
  · intro tr disk h
    induction h with
    | init => exact ⟨rfl, rfl⟩
    | run _ hp ih =>
      obtain ⟨h1, h2⟩ := ih
      subst h2
      obtain ⟨h3, h4⟩ := process_nothing hg hp hn
      exact ⟨by rw [h1, h3]; rfl, h4⟩

/-! ## concrete histories -/

section Examples

def keychainCodec : Codec Keychain :=
  Codec.conv Keychain.toNat (fun n => if n = 0 then some .external else if n = 1 then some .internal else none) (Codec.varint false)
def cliTxCodec : Codec CliTx :=
  Codec.conv (fun t => t.num.val) (fun n => if h : n < 5 then some ⟨⟨n, h⟩⟩ else none) (Codec.varint false)

/-- the encoding of the changesets of the program -/
def cliCodec : Codec (KeychainChangeSet Keychain TxHeight CliTx) :=
  Codec.changeset keychainCodec Codec.txHeight cliTxCodec (Codec.varint true)
abbrev CliFits : KeychainChangeSet Keychain TxHeight CliTx → Prop :=
  Codec.Fits (fun _ => true = true) (fun h => ∀ n, h = .confirmed n → n < 2 ^ 32) (fun _ => True) (fun s => s < Codec.intLimit true)
theorem cli_good : GoodCodec cliCodec CliFits :=
  C42_bincode
    (Codec.conv_lawful (Codec.varint_lawful false) (fun k _ => by cases k <;> decide) (fun k _ => by cases k <;> decide))
    Codec.txHeight_lawful
    (Codec.conv_lawful (Codec.varint_lawful false) (fun t _ => lt_trans t.num.2 (by decide)) (fun t _ => by rw [dif_pos t.num.2]))
    (Codec.varint_lawful true)

/-- how a run ends: normally; or it dies in the write that is its `n`-th effect, after `k` bytes -/
inductive Ending where
  | normal
  | torn (n k : Nat)

/-- the effects on the file, all writes succeeding -/
def doEffects (f : KeychainStore) : List (Event TxHeight CliTx) → KeychainStore
  | [] => f
  | .stored c :: es => doEffects (append cliCodec f c .none).1 es
  | .storeFailed _ :: _ => f
  | _ :: es => doEffects f es

/-- one run, as a function -/
def play (disk : Option Bytes) (cmd : Command TxHeight CliTx) (x : Ending) : Option (List (Event TxHeight CliTx) × Option Bytes) :=
  match start cliCodec 10 (⟨true, 0⟩ : DemoDesc) (some ⟨true, 1⟩) disk with
  | (_, .running t _ f) =>
    let es := (runCommand exEnv t cmd true true).1
    match x with
    | .normal => some (es, some (doEffects f es).bytes)
    | .torn n k =>
      match es[n]? with
      | some (.stored c) => some (es.take n ++ [.storeFailed c], some (append cliCodec (doEffects f (es.take n)) c (.write k)).1.bytes)
      | _ => none
  | _ => none

theorem doEffects_effects {f : KeychainStore} {es : List (Event TxHeight CliTx)} (h : ∀ c, Event.storeFailed c ∉ es)
    {es' f'} (h' : Effects cliCodec (doEffects f es) es' f') : Effects cliCodec f (es ++ es') f' := by
  induction es generalizing f with
  | nil => exact h'
  | cons e es ih =>
    have h1 : ∀ c, Event.storeFailed c ∉ es := fun c hc => h c (List.mem_cons_of_mem _ hc)
    cases e with
    | stored c =>
      refine .stored .none ?_ (ih h1 h')
      unfold append
      split
      · rfl
      · rfl
    | storeFailed c => exact absurd (by simp) (h c)
    | shown => exact .shown (ih h1 h')
    | broadcast => exact .broadcast (ih h1 h')

theorem play_process {disk : Option Bytes} {cmd : Command TxHeight CliTx} {x : Ending} {es disk'} (h : play disk cmd x = some (es, disk')) :
    Process exEnv cliCodec (⟨true, 0⟩ : DemoDesc) (some ⟨true, 1⟩) disk es disk' := by
  unfold play at h
  rcases hs : start (P := TxHeight) (T := CliTx) cliCodec 10 (⟨true, 0⟩ : DemoDesc) (some ⟨true, 1⟩) disk with ⟨d, r | _ | ⟨t, e, f⟩⟩ <;>
    rw [hs] at h <;> try (cases h; done)
  simp only at h
  have hn := command_not_failed exEnv t cmd
  cases x with
  | normal =>
    simp only [Option.some.injEq, Prod.mk.injEq] at h
    obtain ⟨rfl, rfl⟩ := h
    have := doEffects_effects (f := f) hn .nil
    rw [List.append_nil] at this
    exact .command 10 t e f _ cmd true true hs (.between (List.prefix_refl _)) this
  | torn n k =>
    simp only at h
    generalize hes : (runCommand exEnv t cmd true true).1 = all at h hn
    split at h
    · rename_i c hc
      simp only [Option.some.injEq, Prod.mk.injEq] at h
      obtain ⟨rfl, rfl⟩ := h
      refine .command 10 t e f _ cmd true true hs ?_ (doEffects_effects (fun c hc => hn c (List.mem_of_mem_take hc)) (.failed (.write k) .nil))
      rw [hes]
      have := getElem?_split hc
      conv_lhs => rw [this]
      exact .writing
    · cases h

def playAll (disk : Option Bytes) : List (Command TxHeight CliTx × Ending) → Option (List (Event TxHeight CliTx) × Option Bytes)
  | [] => some ([], disk)
  | (cmd, x) :: l =>
    match play disk cmd x with
    | none => none
    | some (es, disk') => (playAll disk' l).map (fun r => (es ++ r.1, r.2))

/-- whether a run with this ending is fine on this file: no torn write where something unreadable was found -/
def cleanStep (disk : Option Bytes) : Ending → Bool
  | .normal => true
  | .torn _ _ => match found cliCodec disk with
    | some (_, some _) => false
    | _ => true

def cleanAll (disk : Option Bytes) : List (Command TxHeight CliTx × Ending) → Bool
  | [] => true
  | (cmd, x) :: l => cleanStep disk x && (match play disk cmd x with
    | none => false
    | some (_, disk') => cleanAll disk' l)

theorem playAll_clean {l : List (Command TxHeight CliTx × Ending)} {tr disk es disk'}
    (h : CleanHistory exEnv cliCodec (⟨true, 0⟩ : DemoDesc) (some ⟨true, 1⟩) tr disk) (hp : playAll disk l = some (es, disk'))
    (hc : cleanAll disk l = true) : CleanHistory exEnv cliCodec (⟨true, 0⟩ : DemoDesc) (some ⟨true, 1⟩) (tr ++ es) disk' := by
  induction l generalizing tr disk es with
  | nil => cases hp; rw [List.append_nil]; exact h
  | cons a l ih =>
    obtain ⟨cmd, x⟩ := a
    unfold playAll at hp
    unfold cleanAll at hc
    rcases hr : play disk cmd x with _ | ⟨es1, disk1⟩ <;> rw [hr] at hp hc
    · cases hp
    · simp only [Option.map_eq_some_iff, Prod.mk.injEq, Bool.and_eq_true] at hp hc
      obtain ⟨⟨es2, d⟩, h1, rfl, rfl⟩ := hp
      rw [← List.append_assoc]
      refine ih (.run h (play_process hr) ?_) h1 hc.2
      intro l' e' hf pre c post he
      cases x with
      | normal =>
        exfalso
        unfold play at hr
        rcases hs : start (P := TxHeight) (T := CliTx) cliCodec 10 (⟨true, 0⟩ : DemoDesc) (some ⟨true, 1⟩) disk with ⟨d', r | _ | ⟨t, e, f⟩⟩ <;>
          rw [hs] at hr <;> try (cases hr; done)
        simp only [Option.some.injEq, Prod.mk.injEq] at hr
        refine command_not_failed exEnv t cmd c ?_
        rw [hr.1, he]
        simp
      | torn n k =>
        have := hc.1
        unfold cleanStep at this
        simp only [hf, Bool.false_eq_true] at this

/-- an address is shown and funded; a payment with change is made; the program dies while it writes that it reveals a further
address; it is asked for it again -/
def exRuns : List (Command TxHeight CliTx × Ending) :=
  [(.address .next, .normal), (.syncElectrum exFund oC, .normal), (.send exLuck 40000 1000 .largestFirst true oC, .normal),
   (.address .new, .torn 0 5), (.address .new, .normal)]

def shownOf (tr : List (Event TxHeight CliTx)) : List (Keychain × Nat × Script) :=
  tr.filterMap fun | .shown k i spk => some (k, i, spk) | _ => none
def sentOf (tr : List (Event TxHeight CliTx)) : List (List TxOut) :=
  tr.filterMap fun | .broadcast tx _ => some tx.output | _ => none
def writesOf (tr : List (Event TxHeight CliTx)) : List (Bool × KeychainChangeSet Keychain TxHeight CliTx) :=
  tr.filterMap fun | .stored c => some (true, c) | .storeFailed c => some (false, c) | _ => none


/-- whether the indices of the changeset are those of wildcard descriptors -/
def rangeB (c : KeychainChangeSet Keychain TxHeight CliTx) : Bool := c.derivationIndices.entries.all (fun e => decide (e.2 ≤ 100))

theorem range_of {c : KeychainChangeSet Keychain TxHeight CliTx} (h : rangeB c = true) :
    InRange (⟨true, 0⟩ : DemoDesc) (some ⟨true, 1⟩) c := by
  intro k i hi
  unfold rangeB at h
  simp only [List.all_eq_true, decide_eq_true_eq] at h
  have := h _ (OMap.mem_entries.2 hi)
  simp only at this
  cases k with
  | external => exact ⟨_, .inl ⟨rfl, rfl⟩, le_trans this (by decide)⟩
  | internal => exact ⟨_, .inr ⟨rfl, rfl⟩, le_trans this (by decide)⟩

theorem exDistinct : DistinctScripts (⟨true, 0⟩ : DemoDesc) (some ⟨true, 1⟩) := by
  intro k k' d d' i j spk h h' _ _ h1 h2
  have c1 : 4 * i + d.base.val = spk := Option.some.inj h1
  have c2 : 4 * j + d'.base.val = spk := Option.some.inj h2
  rcases h with ⟨rfl, rfl⟩ | ⟨rfl, h⟩ <;> rcases h' with ⟨rfl, rfl⟩ | ⟨rfl, h'⟩
  · exact ⟨rfl, by omega⟩
  · cases h'; simp only [Fin.val_zero, Fin.val_one] at c1 c2; omega
  · cases h; simp only [Fin.val_zero, Fin.val_one] at c1 c2; omega
  · cases h; cases h'; exact ⟨rfl, by omega⟩

def exPlayed : List (Event TxHeight CliTx) × Option Bytes := (playAll none exRuns).getD ([], none)

theorem writes_ok {tr : List (Event TxHeight CliTx)} (h : (writesOf tr).all (fun c => fitsB (fun _ => true) c.2 && rangeB c.2) = true)
    (c) (hc : Event.stored c ∈ tr ∨ Event.storeFailed c ∈ tr) : CliFits c ∧ InRange (⟨true, 0⟩ : DemoDesc) (some ⟨true, 1⟩) c := by
  simp only [List.all_eq_true, Bool.and_eq_true] at h
  have : ∃ b, (b, c) ∈ writesOf tr := by
    rcases hc with hc | hc
    · exact ⟨true, List.mem_filterMap.2 ⟨_, hc, rfl⟩⟩
    · exact ⟨false, List.mem_filterMap.2 ⟨_, hc, rfl⟩⟩
  obtain ⟨b, hb⟩ := this
  exact ⟨fits_gen _ c (h _ hb).1, range_of (h _ hb).2⟩

theorem exPlayed_eq : playAll none exRuns = some exPlayed := by
  have h : (playAll none exRuns).isSome = true := by decide +kernel
  unfold exPlayed
  cases hx : playAll none exRuns with
  | none => rw [hx] at h; cases h
  | some r => rfl

theorem playAll_from_nothing {l : List (Command TxHeight CliTx × Ending)} {r} (hp : playAll none l = some r) (hc : cleanAll none l = true) :
    CleanHistory exEnv cliCodec (⟨true, 0⟩ : DemoDesc) (some ⟨true, 1⟩) r.1 r.2 := by
  have := playAll_clean (es := r.1) (disk' := r.2) .init hp hc
  rwa [List.nil_append] at this

theorem exPlayed_clean : CleanHistory exEnv cliCodec (⟨true, 0⟩ : DemoDesc) (some ⟨true, 1⟩) exPlayed.1 exPlayed.2 := by
  have hc : cleanAll none exRuns = true := by decide +kernel
  exact playAll_from_nothing exPlayed_eq hc

/-- the history meets the hypotheses of the theorems above, has two addresses shown, a payment with change, and a write that
died -/
example : (∀ c, Event.stored c ∈ exPlayed.1 ∨ Event.storeFailed c ∈ exPlayed.1 →
      CliFits c ∧ InRange (⟨true, 0⟩ : DemoDesc) (some ⟨true, 1⟩) c) ∧
    shownOf exPlayed.1 = [(.external, 0, 0), (.external, 1, 4)] ∧ sentOf exPlayed.1 = [[⟨40000, 1000⟩, ⟨59692, 1⟩]] ∧
    (writesOf exPlayed.1).map Prod.fst = [true, true, true, true, false, true] := by
  refine ⟨writes_ok (by decide +kernel), ?_, ?_, ?_⟩ <;> decide +kernel

/-- before the last run the file ends in the middle of an entry, after it, it does not -/
example : ((playAll none (exRuns.take 4)).bind (fun r => found cliCodec r.2)).map (fun x => (x.1.length, x.2)) = some (4, some .eof) ∧
    (found cliCodec exPlayed.2).map (fun x => (x.1.length, x.2)) = some (5, none) := by
  refine ⟨?_, ?_⟩ <;> decide +kernel

/-- the next start comes up, and has what `C69_shown_known` and `C69_change_known` say -/
example : ∃ t e f, (start cliCodec 10 (⟨true, 0⟩ : DemoDesc) (some ⟨true, 1⟩) exPlayed.2).2 = .running t e f ∧
    Knows t .external 1 4 ∧ ∃ k i, Knows t k i 1 := by
  have hw := writes_ok (tr := exPlayed.1) (by decide +kernel)
  rcases C69_starts cli_good (demo_derivable _) (fun d _ => demo_derivable d) exPlayed_clean hw exDistinct 10 with ⟨t, e, f, h⟩ | ⟨h, -⟩
  · have hh := exPlayed_clean.history
    have hs : Event.shown .external 1 4 ∈ exPlayed.1 := by
      have : (Keychain.external, 1, 4) ∈ shownOf exPlayed.1 := by decide +kernel
      obtain ⟨ev, h1, h2⟩ := List.mem_filterMap.1 this
      cases ev <;> simp only [Option.some.injEq, Prod.mk.injEq, reduceCtorEq] at h2
      obtain ⟨rfl, rfl, rfl⟩ := h2
      exact h1
    have hb : ∃ tx ok, Event.broadcast tx ok ∈ exPlayed.1 ∧ (⟨59692, 1⟩ : TxOut) ∈ tx.output.tail := by
      have : [⟨40000, 1000⟩, (⟨59692, 1⟩ : TxOut)] ∈ sentOf exPlayed.1 := by decide +kernel
      obtain ⟨ev, h1, h2⟩ := List.mem_filterMap.1 this
      cases ev <;> simp only [Option.some.injEq, reduceCtorEq] at h2
      exact ⟨_, _, h1, by rw [h2]; simp⟩
    obtain ⟨tx, ok, hb1, hb2⟩ := hb
    exact ⟨t, e, f, h,
      (C69_shown_known cli_good (demo_derivable _) (fun d _ => demo_derivable d) hh (fun c hc => (hw c (.inl hc)).1) hs 10).2 t e f h,
      (C69_change_known cli_good (demo_derivable _) (fun d _ => demo_derivable d) hh (fun c hc => (hw c (.inl hc)).1) hb1 10).2 t e f h _ hb2⟩
  · have : exPlayed.1.length = 9 := by decide +kernel
    rw [h] at this
    cases this

/-- a file with something in it (a torn entry at its end) meets the hypotheses of `C69_written_kept` -/
example : ∃ disk0 l0 tr disk, found cliCodec disk0 = some (l0, some .eof) ∧ l0.length = 4 ∧
    History exEnv cliCodec (⟨true, 0⟩ : DemoDesc) (some ⟨true, 1⟩) disk0 tr disk ∧ (writesOf tr).length = 1 := by
  have h : (match playAll none (exRuns.take 4) with
    | some r => (match found cliCodec r.2, play r.2 (.address .new) .normal with
      | some (l, some .eof), some (es, _) => decide (l.length = 4) && decide ((writesOf es).length = 1)
      | _, _ => false)
    | none => false) = true := by decide +kernel
  rcases h1 : playAll none (exRuns.take 4) with _ | r <;> rw [h1] at h
  · cases h
  · simp only at h
    split at h
    · rename_i l es d h2 h3
      simp only [Bool.and_eq_true, decide_eq_true_eq] at h
      exact ⟨r.2, l, [] ++ es, d, h2, h.1, .run .init (play_process h3), h.2⟩
    · cases h

/-- a `Send` with change that ends normally, as in `C69_resumes` and `C69_in_range` -/
example : ∃ disk disk' t e f es t', start cliCodec 10 (⟨true, 0⟩ : DemoDesc) (some ⟨true, 1⟩) disk = (disk', .running t e f) ∧
    runCommand exEnv t (.send exLuck 40000 1000 .largestFirst true oC) true true = (es, some t') ∧
    WithChange (.send exLuck 40000 1000 .largestFirst true oC) es ∧ Effects cliCodec f es (doEffects f es) ∧
    (writesOf es).length = 2 ∧ ScanInRange (⟨true, 0⟩ : DemoDesc) (some ⟨true, 1⟩) (Command.send (P := TxHeight) (T := CliTx) exLuck 40000 1000 .largestFirst true oC) := by
  have h : (match playAll none (exRuns.take 2) with
    | some r => (match start cliCodec 10 (⟨true, 0⟩ : DemoDesc) (some ⟨true, 1⟩) r.2 with
      | (_, .running t _ _) => (match runCommand exEnv t (.send exLuck 40000 1000 .largestFirst true oC) true true with
        | (es, some _) => decide (sentOf es = [[⟨40000, 1000⟩, ⟨59692, 1⟩]]) && decide ((writesOf es).length = 2)
        | _ => false)
      | _ => false)
    | none => false) = true := by decide +kernel
  rcases h1 : playAll none (exRuns.take 2) with _ | r <;> rw [h1] at h
  · cases h
  · simp only at h
    rcases hs : start (P := TxHeight) (T := CliTx) cliCodec 10 (⟨true, 0⟩ : DemoDesc) (some ⟨true, 1⟩) r.2 with ⟨d, q | _ | ⟨t, e, f⟩⟩ <;>
      rw [hs] at h <;> try (cases h; done)
    simp only at h
    rcases hr : runCommand exEnv t (.send exLuck 40000 1000 .largestFirst true oC) true true with ⟨es, _ | t'⟩ <;> rw [hr] at h
    · cases h
    · simp only [Bool.and_eq_true, decide_eq_true_eq] at h
      have hn : ∀ c, Event.storeFailed c ∉ es := by
        have := command_not_failed exEnv t (.send exLuck 40000 1000 .largestFirst true oC); rw [hr] at this; exact this
      have he := doEffects_effects (f := f) hn .nil
      rw [List.append_nil] at he
      refine ⟨r.2, d, t, e, f, es, t', hs, hr, ?_, he, h.2, trivial⟩
      have : [⟨40000, 1000⟩, (⟨59692, 1⟩ : TxOut)] ∈ sentOf es := by rw [h.1]; simp
      obtain ⟨ev, h1, h2⟩ := List.mem_filterMap.1 this
      cases ev <;> simp only [Option.some.injEq, reduceCtorEq] at h2
      exact ⟨_, _, h1, by rw [h2]; simp⟩

end Examples

end Verif.Cli
