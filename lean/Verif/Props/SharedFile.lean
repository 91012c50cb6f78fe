import Verif.Lemmas.SharedFile
import Verif.Props.Process

/-!
# Property C70: several stores, or several programs, on one database file

The file is not locked.  Each store has a position of its own and writes there, cutting off what follows.
-/

set_option linter.unusedSectionVars false

namespace Verif.Props
open Verif Verif.Spec Verif.KeychainStore Verif.SharedFile
variable {K P T : Type} [LinearOrder K] [LinearOrder P] [LinearOrder T]
  {cd : Codec (KeychainChangeSet K P T)} {dom : KeychainChangeSet K P T → Prop}

/-- **C70** if every store appends only when it has read the file to its end and no other one has appended since, then the file has
what all the stores have appended, in order, and nothing else -/
theorem C70_reread (hg : GoodCodec cd dom) {b : Bytes} {l0} (h0 : contents cd b = some (l0, none)) (ops : List (SharedOp K P T))
    (hd : Disciplined ops) (hdom : ∀ c ∈ sharedAppends ops, dom c) :
    contents cd ((SharedFile.closed b).run cd ops).bytes = some (l0 ++ nonEmpty (sharedAppends ops), none) := by
  obtain ⟨⟨u, h1, h2⟩, -, -⟩ := shared_run hg h0 ops hd hdom
  rw [h1]
  exact contents_of_parses hg.lawful hg.nil h2

/-- **C70** and no call fails: opening and appending succeed, and reading gives what all of the stores have appended, also to one
that was open all the time -/
theorem C70_results (hg : GoodCodec cd dom) {b : Bytes} {l0} (h0 : contents cd b = some (l0, none)) (ops : List (SharedOp K P T)) (op)
    (hd : Disciplined (ops ++ [op])) (hdom : ∀ c ∈ sharedAppends (ops ++ [op]), dom c) :
    match op with
      | .open _ _ => (((SharedFile.closed b).run cd ops).step cd op).2 = .opened (.ok ())
      | .read _ => (((SharedFile.closed b).run cd ops).step cd op).2 = .entries (l0 ++ nonEmpty (sharedAppends ops)) none
      | .append _ _ => (((SharedFile.closed b).run cd ops).step cd op).2 = .appended (.ok ()) := by
  rw [sharedAppends_snoc] at hdom
  have := (shared_step hg (shared_run hg h0 ops (disciplined_init hd) (fun c hc => hdom c (by simp [hc]))) hd
    (fun c hc => hdom c (by simp [hc]))).2.2.2
  revert this
  cases op <;> exact id

/-- **C70** (finding) one append by a store that has not read the file again destroys all that the others have appended since it
did, although those appends have returned `Ok`, and returns `Ok` itself -/
theorem C70_stale (hg : GoodCodec cd dom) {b : Bytes} {l0} (h0 : contents cd b = some (l0, none)) (a r : List (SharedOp K P T)) (h : Nat)
    (hd : Disciplined (a ++ .read h :: r)) (hdom : ∀ c ∈ sharedAppends (a ++ .read h :: r), dom c)
    (hr : ∀ op ∈ r, storeOf op ≠ h) {c : KeychainChangeSet K P T} (hc : c.isEmpty = false) (hdc : dom c) :
    contents cd ((SharedFile.closed b).run cd (a ++ .read h :: r)).bytes =
      some (l0 ++ nonEmpty (sharedAppends a) ++ nonEmpty (sharedAppends r), none) ∧
    (((SharedFile.closed b).run cd (a ++ .read h :: r)).step cd (.append h c)).2 = .appended (.ok ()) ∧
    contents cd ((SharedFile.closed b).run cd (a ++ .read h :: r ++ [.append h c])).bytes =
      some (l0 ++ nonEmpty (sharedAppends a) ++ [c], none) := by
  have e1 : a ++ SharedOp.read h :: r = a ++ [.read h] ++ r := by simp
  have e2 : sharedAppends (a ++ [.read h] ++ r) = sharedAppends a ++ sharedAppends r := by
    unfold sharedAppends; simp [List.filterMap_append]
  rw [e1] at hd hdom ⊢
  have hall := C70_reread hg h0 _ hd hdom
  rw [e2, nonEmpty_append, ← List.append_assoc] at hall
  refine ⟨hall, ?_⟩
  have hd1 := disciplined_prefix hd
  have hdom1 : ∀ c ∈ sharedAppends (a ++ [.read h]), dom c := fun c hc => by
    rw [e2] at hdom; rw [sharedAppends_snoc] at hc
    exact hdom c (by simpa [sharedAppends] using Or.inl hc)
  obtain ⟨⟨u, h1, h2⟩, h3, -⟩ := shared_run hg h0 _ hd1 hdom1
  have h4 := h3 h ⟨a, [], by simp, by simp, by simp⟩
  obtain ⟨⟨v, h5⟩, h6⟩ := shared_others hg h0 (a ++ [.read h]) r hd hdom hr
  rw [h4] at h6
  have hst : ((SharedFile.closed b).run cd (a ++ [.read h] ++ r)).step cd (.append h c) =
      (((SharedFile.closed b).run cd (a ++ [.read h] ++ r)).put h
        ⟨((SharedFile.closed b).run cd (a ++ [.read h])).bytes ++ cd.enc c,
          ((SharedFile.closed b).run cd (a ++ [.read h])).bytes.length + (cd.enc c).length⟩, .appended (.ok ())) := by
    have := append_at cd ((SharedFile.closed b).run cd (a ++ [.read h])).bytes v c hc
    rw [h5] at this
    conv_lhs => unfold SharedFile.step
    simp only [h6, this]
  refine ⟨by rw [hst], ?_⟩
  rw [run_snoc, hst]
  show contents cd (_ ++ cd.enc c) = _
  rw [h1, List.append_assoc]
  obtain ⟨u', hu', happ⟩ := parses_append hg.lawful hg.nil h2
  rw [List.append_nil] at hu'
  subst hu'
  have h7 := happ (cd.enc c) [c] none [] (by
    have := parses_enc hg.lawful hdc (Parses.done (cd := cd)); rwa [List.append_nil] at this)
  have e3 : sharedAppends (a ++ [SharedOp.read h]) = sharedAppends a := by rw [sharedAppends_snoc]; simp [sharedAppends]
  rw [e3] at h7
  exact contents_of_parses hg.lawful hg.nil h7

/-- **C70** (finding) the same with failing writes, and whatever the encoding: of two stores at the same place of a file, one appends as
often as it likes, with or without faults; once the other has appended, the file is what it would be without the first one -/
theorem C70_same_place (f : KeychainStore) (hp : f.pos ≤ f.bytes.length) (as : List (KeychainChangeSet K P T × WriteFault))
    {c : KeychainChangeSet K P T} (hc : c.isEmpty = false) {x : WriteFault} {f'}
    (h : append cd ⟨(as.foldl (fun g a => (append cd g a.1 a.2).1) f).bytes, f.pos⟩ c x = (f', .ok ())) :
    append cd f c x = (f', .ok ()) := by
  have key : ∀ (g : KeychainStore), f.pos ≤ g.pos → f.pos ≤ g.bytes.length → g.bytes.take f.pos = f.bytes.take f.pos →
      (as.foldl (fun g a => (append cd g a.1 a.2).1) g).bytes.take f.pos = f.bytes.take f.pos ∧
      f.pos ≤ (as.foldl (fun g a => (append cd g a.1 a.2).1) g).bytes.length := by
    clear h
    induction as with
    | nil => intro g _ h2 h3; exact ⟨h3, h2⟩
    | cons a as ih =>
      intro g h1 h2 h3
      obtain ⟨k1, k2, k3⟩ := append_keeps (cd := cd) g a.1 a.2 h1 h2
      exact ih _ k2 k3 (k1.trans h3)
  obtain ⟨h1, h2⟩ := key f (le_refl _) hp rfl
  exact append_cuts h1 hp h2 hc h

/-! ### concrete histories -/

section Examples

theorem disciplined_nil : Disciplined ([] : List (SharedOp K P T)) :=
  ⟨(fun a h b e => by cases a <;> cases e), (fun a h c b e => by cases a <;> cases e)⟩

theorem disciplined_snoc {ops : List (SharedOp K P T)} {op} (h : Disciplined ops)
    (h' : match op with
      | .open _ _ => True
      | .read k => ∃ x, SharedOp.open k x ∈ ops
      | .append k _ => UpToDate ops k) : Disciplined (ops ++ [op]) := by
  constructor
  · intro a k b e
    rcases snoc_split e with ⟨-, h1, h2⟩ | ⟨b', -, h2⟩
    · subst h2; rw [h1]; exact h'
    · exact h.1 a k b' h2
  · intro a k c b e
    rcases snoc_split e with ⟨-, h1, h2⟩ | ⟨b', -, h2⟩
    · subst h2; rw [h1]; exact h'
    · exact h.2 a k c b' h2

/-- two stores take turns: each reads the file again before it writes -/
def exTurns : List (SharedOp Nat TxHeight DemoTx) :=
  [.open 0 false, .read 0, .append 0 (csIdx 0 6), .open 1 true, .read 1, .append 1 csTx, .append 1 .empty, .append 1 (csIdx 1 2), .read 0,
   .append 0 (csIdx 0 7)]

/-- two stores, both of which have read the file; the second one has written -/
def exStale : List (SharedOp Nat TxHeight DemoTx) :=
  [.open 0 false, .open 1 false, .read 0, .read 1, .append 1 csTx, .append 1 (csIdx 1 2)]

theorem exTurns_disciplined : Disciplined exTurns := by
  have h1 : Disciplined ([.open 0 false] : List (SharedOp Nat TxHeight DemoTx)) := disciplined_snoc disciplined_nil trivial
  have h2 := disciplined_snoc (op := .read 0) h1 ⟨false, by simp⟩
  have h3 := disciplined_snoc (op := .append 0 (csIdx 0 6)) h2 ⟨[.open 0 false], [], rfl, by simp, by simp⟩
  have h4 := disciplined_snoc (op := .open 1 true) h3 trivial
  have h5 := disciplined_snoc (op := .read 1) h4 ⟨true, by simp⟩
  have h6 := disciplined_snoc (op := .append 1 csTx) h5 ⟨_, [], rfl, by simp, by simp⟩
  have h7 := disciplined_snoc (op := .append 1 .empty) h6 ⟨_, [.append 1 csTx], List.append_assoc _ [_] [_], by simp, by simp⟩
  have h8 := disciplined_snoc (op := .append 1 (csIdx 1 2)) h7 
    ⟨[.open 0 false, .read 0, .append 0 (csIdx 0 6), .open 1 true], [.append 1 csTx, .append 1 .empty], rfl,
      (by simp only [List.mem_cons, SharedOp.append.injEq, List.not_mem_nil, or_false]; omega), by simp⟩
  have h9 := disciplined_snoc (op := .read 0) h8 ⟨false, by simp⟩
  exact disciplined_snoc (op := .append 0 (csIdx 0 7)) h9 ⟨_, [], rfl, by simp, by simp⟩

theorem exStale_disciplined : Disciplined exStale := by
  have h1 : Disciplined ([.open 0 false] : List (SharedOp Nat TxHeight DemoTx)) := disciplined_snoc disciplined_nil trivial
  have h2 := disciplined_snoc (op := .open 1 false) h1 trivial
  have h3 := disciplined_snoc (op := .read 0) h2 ⟨false, by simp⟩
  have h4 := disciplined_snoc (op := .read 1) h3 ⟨false, by simp⟩
  have h5 := disciplined_snoc (op := .append 1 csTx) h4 ⟨_, [], rfl, by simp, by simp⟩
  exact disciplined_snoc (op := .append 1 (csIdx 1 2)) h5 
    ⟨[.open 0 false, .open 1 false, .read 0], [.append 1 csTx], rfl, by simp, by simp⟩

/-- they meet the hypotheses of `C70_reread`, and of `C70_stale` for store 0 -/
example : contents demoCodec exFile = some ([csIdx 0 5], none) ∧ (∀ c ∈ sharedAppends exTurns, DemoFits c) ∧
    exStale = [.open 0 false, .open 1 false] ++ .read 0 :: exStale.drop 3 ∧ (∀ c ∈ sharedAppends exStale, DemoFits c) ∧
    (∀ op ∈ exStale.drop 3, storeOf op ≠ 0) := by
  refine ⟨by decide +kernel, ?_, rfl, ?_, ?_⟩
  · intro c hc
    refine fits_of c ?_
    have h : (sharedAppends exTurns).all (fun c => fitsB (fun k => decide (k < 2 ^ 32)) c) = true := by decide +kernel
    exact List.all_eq_true.1 h c hc
  · intro c hc
    refine fits_of c ?_
    have h : (sharedAppends exStale).all (fun c => fitsB (fun k => decide (k < 2 ^ 32)) c) = true := by decide +kernel
    exact List.all_eq_true.1 h c hc
  · simp [exStale, storeOf]

/-- all that both have appended is there; but an append by the store that has not read again loses two changesets -/
example : contents demoCodec ((SharedFile.closed exFile).run demoCodec exTurns).bytes =
      some ([csIdx 0 5, csIdx 0 6, csTx, csIdx 1 2, csIdx 0 7], none) ∧
    contents demoCodec ((SharedFile.closed exFile).run demoCodec exStale).bytes = some ([csIdx 0 5, csTx, csIdx 1 2], none) ∧
    contents demoCodec ((SharedFile.closed exFile).run demoCodec (exStale ++ [.append 0 (csIdx 0 7)])).bytes =
      some ([csIdx 0 5, csIdx 0 7], none) := by
  refine ⟨?_, ?_, ?_⟩ <;> decide +kernel

end Examples

end Verif.Props

namespace Verif.Cli
open Verif Verif.CoinSelect Verif.Planner Verif.Spec Verif.Props KeychainStore

variable {D Key Ak Sec XPrv Msg T P : Type} [DescriptorOps D] [DecidableEq D] [LinearOrder P] [ChainPosition P] [LawfulChainPosition P] [LinearOrder T]
  [AsTransaction T] [LawfulTx T] [DecidableEq Key]
  {cd : Codec (KeychainChangeSet Keychain P T)} {dom : KeychainChangeSet Keychain P T → Prop}
  {env : Env D Key Ak Sec XPrv Msg T} {ext : D} {int : Option D}

theorem parses_unique {bs : Bytes} {l e t l' e' t'} (h : Parses cd bs l e t) (h' : Parses cd bs l' e' t') (hn : cd.dec [] = .eof) :
    t = t' := by
  induction h generalizing l' with
  | done => cases h' with
    | done => rfl
    | eof h => exact absurd rfl h
    | bad h => rfl
    | cons h => rw [hn] at h; cases h
  | eof h1 h2 => cases h' with
    | done => rfl
    | eof => rfl
    | bad => rfl
    | cons h => rw [h2] at h; cases h
  | bad h1 => cases h' with
    | done => rfl
    | eof => rfl
    | bad => rfl
    | cons h => rw [h1] at h; cases h
  | cons h1 _ ih => cases h' with
    | done => rw [hn] at h1; cases h1
    | eof _ h => rw [h1] at h; cases h
    | bad h => rw [h1] at h; cases h
    | cons h h' => rw [h1] at h; cases h; exact ih h'

/-- effects happen from the position on -/
theorem effects_keep {f f' : KeychainStore} {es : List (Event P T)} (h : Effects cd f es f') {p : Nat} (h1 : p ≤ f.pos)
    (h2 : p ≤ f.bytes.length) : f'.bytes.take p = f.bytes.take p ∧ p ≤ f'.bytes.length := by
  induction h with
  | nil => exact ⟨rfl, h2⟩
  | @stored f f' f'' c es x ha _ ih =>
    have := append_keeps (cd := cd) f c x h1 h2
    rw [ha] at this
    obtain ⟨k1, k2⟩ := ih this.2.1 this.2.2
    exact ⟨k1.trans this.1, k2⟩
  | @failed f f' c es x _ ih =>
    have := append_keeps (cd := cd) f c x h1 h2
    obtain ⟨k1, k2⟩ := ih this.2.1 this.2.2
    exact ⟨k1.trans this.1, k2⟩
  | shown _ ih => exact ih h1 h2
  | broadcast _ ih => exact ih h1 h2

/-- the file begins with these entries, encoded in these bytes -/
def Begins (cd : Codec (KeychainChangeSet Keychain P T)) (u : Bytes) (l : List (KeychainChangeSet Keychain P T)) (b : Bytes) : Prop :=
  b.take (magicBytes ++ u).length = magicBytes ++ u ∧ ∀ r l' e' t', Parses cd r l' e' t' → Parses cd (u ++ r) (l ++ l') e' t'

theorem start_disk (hg : GoodCodec cd dom) {cp : Nat} {b : Bytes} {d s} (h : start (P := P) (T := T) cd cp ext int (some b) = (d, s)) :
    d = some b := by
  obtain ⟨base, hb, -⟩ := initTracker_some (P := P) (T := T) cp ext int
  cases hf : found cd (some b) with
  | none => obtain ⟨e', h'⟩ := start_not_found hg hb hf; rw [h'] at h; cases h; rfl
  | some le =>
    obtain ⟨f, tl, -, -, h3, h4⟩ := start_found hg hb (l := le.1) (e := le.2) hf
    rw [h4] at h
    cases hr : base.replay le.1 with
    | none => rw [hr] at h; cases h; rw [h3]; rfl
    | some t' => rw [hr] at h; cases h; rw [h3]; rfl

theorem process_begins (hg : GoodCodec cd dom) {b : Bytes} {es : List (Event P T)} {disk'} (h : Process env cd ext int (some b) es disk')
    {u l} (hb : Begins cd u l b) : ∃ b', disk' = some b' ∧ Begins cd u l b' := by
  revert h
  generalize hd0 : some b = disk
  intro h
  cases h with
  | early => subst hd0; exact ⟨b, rfl, hb⟩
  | creating => cases hd0
  | stopped cp s hs => subst hd0; exact ⟨b, start_disk hg hs, hb⟩
  | @command _ d' _ cp t e f f' cmd ok1 ok2 hs hcut he =>
    subst hd0
    refine ⟨_, rfl, ?_, hb.2⟩
    obtain ⟨base, l2, tl, -, -, -, ⟨v, hf, hv⟩, h5, h6⟩ := start_running hg hs
    simp only [Option.getD_some] at h6
    have e1 : b = magicBytes ++ u ++ b.drop (magicBytes ++ u).length := by
      conv_lhs => rw [← List.take_append_drop (magicBytes ++ u).length b, hb.1]
    obtain ⟨l3, e3, t3, h7⟩ := parses_total hg.lawful hg.nil (b.drop (magicBytes ++ u).length)
    obtain ⟨w, hw, -⟩ := parses_append hg.lawful hg.nil h7
    have h8 := hb.2 _ _ _ _ h7
    have h9 := hv _ _ _ _ h5
    have e2 : v ++ tl = u ++ b.drop (magicBytes ++ u).length := by
      have : magicBytes ++ (v ++ tl) = magicBytes ++ (u ++ b.drop (magicBytes ++ u).length) := by
        rw [← List.append_assoc, ← List.append_assoc, ← e1, ← h6, hf]
      exact List.append_cancel_left this
    rw [e2] at h9
    have e3 := parses_unique h8 h9 hg.nil
    subst e3
    have hlen : u.length ≤ v.length := by
      have := congrArg List.length e2
      rw [hw] at this
      simp only [List.length_append] at this
      omega
    have hpos : (magicBytes ++ u).length ≤ f.pos := by rw [hf]; simp only [List.length_append]; omega
    have hbl : (magicBytes ++ u).length ≤ f.bytes.length := by rw [hf]; simp only [List.length_append]; omega
    rw [(effects_keep he hpos hbl).1, h6]
    exact hb.1

theorem history_begins (hg : GoodCodec cd dom) {b : Bytes} {tr : List (Event P T)} {disk'} (h : History env cd ext int (some b) tr disk')
    {u l} (hb : Begins cd u l b) : ∃ b', disk' = some b' ∧ Begins cd u l b' := by
  induction h with
  | init => exact ⟨b, rfl, hb⟩
  | run _ hp ih =>
    obtain ⟨b1, rfl, h1⟩ := ih
    exact process_begins hg hp h1

/-- **C70** (finding) a program that was started before others, and that writes after them, undoes them: whatever runs of programs
came in between, once it has written, the file is what it would be had there been none of them -/
theorem C70_erased (hg : GoodCodec cd dom) {cp : Nat} {disk d : Option Bytes} {t : Tracker Keychain D P T} {e f}
    (hs : start cd cp ext int disk = (d, .running t e f)) {tr : List (Event P T)} {b : Bytes} (h : History env cd ext int d tr (some b))
    (cmd : Command P T) (hw : diskOf (runCommand env t cmd true true).1 ≠ []) {f' : KeychainStore}
    (he : Effects cd ⟨b, f.pos⟩ (runCommand env t cmd true true).1 f') :
    Effects cd f (runCommand env t cmd true true).1 f' := by
  obtain ⟨base, l, tl, -, -, -, ⟨u, hf, hu⟩, h5, h6⟩ := start_running hg hs
  have hd : d = some f.bytes := by
    cases disk with
    | some b0 => rw [start_disk hg hs, h6]; rfl
    | none =>
      unfold start at hs
      split at hs
      · cases hs
      · split at hs
        · cases hs
        · split at hs
          · cases hs
          · simp only [Prod.mk.injEq, Started.running.injEq] at hs
            rw [← hs.1, hs.2.2.2]
  have hbeg : Begins cd u l f.bytes := by
    refine ⟨?_, hu⟩
    rw [hf]
    exact List.take_left
  obtain ⟨b', hb', h7, -⟩ := history_begins hg (hd ▸ h) hbeg
  cases hb'
  have hpos : f.pos = (magicBytes ++ u).length := by rw [hf]
  have hlb : f.pos ≤ b.length := by
    have := congrArg List.length h7
    rw [List.length_take] at this
    omega
  have hlf : f.pos ≤ f.bytes.length := by rw [hf]; simp only [List.length_append]; omega
  have htk : b.take f.pos = f.bytes.take f.pos := by
    rw [hpos, h7, hf]; exact List.take_left.symm
  have hsh := (shaped_command env t cmd true true).2
  have hnf := command_not_failed env t cmd
  revert he hw hsh hnf
  generalize (runCommand env t cmd true true).1 = es
  intro hw he hsh hnf
  have key : ∀ es : List (Event P T), diskOf es ≠ [] → (∀ c, Event.stored c ∈ es → c.isEmpty = false) → (∀ c, Event.storeFailed c ∉ es) →
      Effects cd ⟨b, f.pos⟩ es f' → Effects cd f es f' := by
    intro es
    induction es with
    | nil => intro hw; exact absurd rfl hw
    | cons ev es ih =>
      intro hw hsh hnf he
      cases he with
      | stored x ha hrest => exact .stored x (append_cuts htk hlf hlb (hsh _ (by simp)) ha) hrest
      | failed x hrest => exact absurd List.mem_cons_self (hnf _)
      | shown hrest =>
        exact .shown (ih (by simpa [diskOf] using hw) (fun c hc => hsh c (by simp [hc])) (fun c hc => hnf c (by simp [hc])) hrest)
      | broadcast hrest =>
        exact .broadcast (ih (by simpa [diskOf] using hw) (fun c hc => hsh c (by simp [hc])) (fun c hc => hnf c (by simp [hc])) hrest)
  exact key es hw (fun c hc => hsh c (.inl hc)) hnf he

/-! ### an address that is forgotten -/

/-- **C70** (finding) with two programs at work on the same file at the same time, `C69_shown_known` fails: while one of them is
fetching the transactions of the wallet, the other one shows a new address and ends normally, all of its writes having succeeded;
then the first one writes what it has found and ends normally too.  The next start comes up, and does not know the address. -/
theorem C70_forgotten_address : ∃ (tr0 : List (Event TxHeight CliTx)) (disk d : Option Bytes) (t : Tracker Keychain DemoDesc TxHeight CliTx)
    (f f' : KeychainStore) (tr : List (Event TxHeight CliTx)) (b : Bytes),
    CleanHistory exEnv cliCodec (⟨true, 0⟩ : DemoDesc) (some ⟨true, 1⟩) tr0 disk ∧
    start cliCodec 10 (⟨true, 0⟩ : DemoDesc) (some ⟨true, 1⟩) disk = (d, .running t none f) ∧
    Process exEnv cliCodec (⟨true, 0⟩ : DemoDesc) (some ⟨true, 1⟩) d tr (some b) ∧ Event.shown .external 1 4 ∈ tr ∧
    Effects cliCodec ⟨b, f.pos⟩ (runCommand exEnv t (.syncElectrum exFund oC) true true).1 f' ∧
    ∃ t' f'', (start cliCodec 10 (⟨true, 0⟩ : DemoDesc) (some ⟨true, 1⟩) (some f'.bytes)).2 = .running t' none f'' ∧
      ¬ Knows t' .external 1 4 := by
  have h0 : (match playAll none [(.address .next, .normal)] with
    | some r => decide (shownOf r.1 = [(.external, 0, 0)]) && (match start cliCodec 10 (⟨true, 0⟩ : DemoDesc) (some ⟨true, 1⟩) r.2 with
      | (d, .running t none f) => (match play d (.address .new) .normal with
        | some (es, some b) => decide (shownOf es = [(.external, 1, 4)]) &&
          (match start (P := TxHeight) (T := CliTx) cliCodec 10 (⟨true, 0⟩ : DemoDesc) (some ⟨true, 1⟩)
              (some (doEffects ⟨b, f.pos⟩ (runCommand exEnv t (.syncElectrum exFund oC) true true).1).bytes) with
            | (_, .running t' none _) => decide (t'.txoutIndex.lastRevealedIndex .external = some 0)
            | _ => false)
        | _ => false)
      | _ => false)
    | none => false) = true := by decide +kernel
  have hc : cleanAll none [(.address .next, .normal)] = true := by decide +kernel
  rcases h1 : playAll none [(.address .next, .normal)] with _ | r <;> rw [h1] at h0
  · cases h0
  have hcl := playAll_from_nothing h1 hc
  simp only [Bool.and_eq_true, decide_eq_true_eq] at h0
  have h0 := h0.2
  rcases hs : start (P := TxHeight) (T := CliTx) cliCodec 10 (⟨true, 0⟩ : DemoDesc) (some ⟨true, 1⟩) r.2 with ⟨d, q | _ | ⟨t, e, f⟩⟩ <;>
    rw [hs] at h0 <;> try (cases h0; done)
  cases e with
  | some e => cases h0
  | none =>
  simp only at h0
  rcases hp : play d (.address .new) .normal with _ | ⟨es, _ | b⟩ <;> rw [hp] at h0 <;> try (cases h0; done)
  simp only [Bool.and_eq_true, decide_eq_true_eq] at h0
  have hsh : Event.shown .external 1 4 ∈ es := by
    have : (Keychain.external, 1, 4) ∈ shownOf es := by rw [h0.1]; simp
    obtain ⟨ev, h1, h2⟩ := List.mem_filterMap.1 this
    cases ev <;> simp only [Option.some.injEq, Prod.mk.injEq, reduceCtorEq] at h2
    obtain ⟨rfl, rfl, rfl⟩ := h2
    exact h1
  have heff := doEffects_effects (f := ⟨b, f.pos⟩) (command_not_failed exEnv t (.syncElectrum exFund oC)) .nil
  rw [List.append_nil] at heff
  have h0 := h0.2
  rcases hs' : start (P := TxHeight) (T := CliTx) cliCodec 10 (⟨true, 0⟩ : DemoDesc) (some ⟨true, 1⟩)
      (some (doEffects ⟨b, f.pos⟩ (runCommand exEnv t (.syncElectrum exFund oC) true true).1).bytes) with ⟨d', q | _ | ⟨t', e', f''⟩⟩ <;>
    rw [hs'] at h0 <;> try (cases h0; done)
  cases e' with
  | some e => cases h0
  | none =>
  simp only [decide_eq_true_eq] at h0
  refine ⟨r.1, r.2, d, t, f, _, es, b, hcl, hs, play_process hp, hsh, heff, t', f'', by rw [hs'], ?_⟩
  rintro ⟨⟨j, h2, h3⟩, -⟩
  rw [h0] at h2
  cases h2
  omega

/-- the programs of this history meet the hypotheses of `C70_erased` -/
example : ∃ (disk d : Option Bytes) (t : Tracker Keychain DemoDesc TxHeight CliTx) (f : KeychainStore) (tr : List (Event TxHeight CliTx))
    (b : Bytes), start cliCodec 10 (⟨true, 0⟩ : DemoDesc) (some ⟨true, 1⟩) disk = (d, .running t none f) ∧
    History exEnv cliCodec (⟨true, 0⟩ : DemoDesc) (some ⟨true, 1⟩) d tr (some b) ∧ diskOf tr ≠ [] ∧
    diskOf (runCommand exEnv t (.syncElectrum exFund oC) true true).1 ≠ [] := by
  have h0 : (match start cliCodec 10 (⟨true, 0⟩ : DemoDesc) (some ⟨true, 1⟩) none with
      | (d, .running t none _) => (match play d (.address .new) .normal with
        | some (es, some _) => decide (diskOf es ≠ []) && decide (diskOf (runCommand exEnv t (.syncElectrum exFund oC) true true).1 ≠ [])
        | _ => false)
      | _ => false) = true := by decide +kernel
  rcases hs : start (P := TxHeight) (T := CliTx) cliCodec 10 (⟨true, 0⟩ : DemoDesc) (some ⟨true, 1⟩) none with ⟨d, q | _ | ⟨t, e, f⟩⟩ <;>
    rw [hs] at h0 <;> try (cases h0; done)
  cases e with
  | some e => cases h0
  | none =>
  simp only at h0
  rcases hp : play d (.address .new) .normal with _ | ⟨es, _ | b⟩ <;> rw [hp] at h0 <;> try (cases h0; done)
  simp only [Bool.and_eq_true, decide_eq_true_eq] at h0
  exact ⟨none, d, t, f, [] ++ es, b, hs, .run .init (play_process hp), h0.1, h0.2⟩

end Verif.Cli
