import Verif.Spec.Overlap
import Verif.Props.SharedFile
import Verif.Props.Process

/-!
# C83: appends to one file whose system calls overlap
-/

set_option linter.unusedSectionVars false

namespace Verif.Props
open Verif Verif.Spec Verif.KeychainStore

section
variable {K P T : Type} [LinearOrder K] [LinearOrder P] [LinearOrder T]
variable {cd : Codec (KeychainChangeSet K P T)} {dom : KeychainChangeSet K P T → Prop}

theorem write_keeps (f : File) (e : Bytes) {p : Nat} (h1 : p ≤ f.pos) (h2 : p ≤ f.bytes.length) :
    (f.write e).bytes.take p = f.bytes.take p ∧ p ≤ (f.write e).pos ∧ p ≤ (f.write e).bytes.length := by
  unfold File.write
  refine ⟨?_, by show p ≤ f.pos + e.length; omega, ?_⟩
  · show (f.bytes.take f.pos ++ _ ++ e ++ _).take p = _
    rw [List.append_assoc, List.append_assoc, List.take_append_of_le_length (by rw [List.length_take]; omega), List.take_take, Nat.min_eq_left h1]
  · simp only [List.length_append, List.length_take]; omega

theorem setLen_keeps (g : File) {n p : Nat} (hn : p ≤ n) (hl : p ≤ g.bytes.length) :
    (g.setLen n).bytes.take p = g.bytes.take p ∧ p ≤ (g.setLen n).bytes.length := by
  unfold File.setLen
  refine ⟨?_, ?_⟩
  · show (g.bytes.take n ++ _).take p = _
    rw [List.take_append_of_le_length (by rw [List.length_take]; omega), List.take_take, Nat.min_eq_left hn]
  · simp only [List.length_append, List.length_take]; omega

/-- the file begins with `u`, which is readable, and no store is inside of it -/
structure Begins (cd : Codec (KeychainChangeSet K P T)) (u : Bytes) (s : SharedFile) : Prop where
  bytes : s.bytes.take (magicBytes ++ u).length = magicBytes ++ u
  pos : ∀ h p, s.pos h = some p → (magicBytes ++ u).length ≤ p

theorem Begins.len {u : Bytes} {s : SharedFile} (h : Begins cd u s) : (magicBytes ++ u).length ≤ s.bytes.length := by
  have := congrArg List.length h.bytes
  rw [List.length_take] at this
  omega

theorem begins_put {u : Bytes} {s : SharedFile} (hb : Begins cd u s) {h : Nat} {f : File}
    (h1 : f.bytes.take (magicBytes ++ u).length = s.bytes.take (magicBytes ++ u).length) (h2 : (magicBytes ++ u).length ≤ f.pos) :
    Begins cd u (s.put h f) := by
  refine ⟨h1.trans hb.bytes, fun i p hp => ?_⟩
  unfold SharedFile.put at hp
  by_cases hi : i = h
  · have hp : (if i = h then some f.pos else s.pos i) = some p := hp
    rw [if_pos hi] at hp; cases hp; exact h2
  · have hp : (if i = h then some f.pos else s.pos i) = some p := hp
    rw [if_neg hi] at hp; exact hb.pos i p hp

/-- reading a file that begins so -/
theorem begins_read (hg : GoodCodec cd dom) {u : Bytes} {l0} (hu : Parses cd u l0 none []) {s : SharedFile} (hb : Begins cd u s) (p : Nat) :
    ∃ l e q, readAll cd ⟨s.bytes, p⟩ = some (l0 ++ l, e, ⟨s.bytes, q⟩) ∧ (magicBytes ++ u).length ≤ q ∧
      contents cd s.bytes = some (l0 ++ l, e) := by
  obtain ⟨v, hv, happ⟩ := parses_append hg.lawful hg.nil hu
  rw [List.append_nil] at hv
  subst hv
  obtain ⟨r, hr⟩ : ∃ r, s.bytes = magicBytes ++ (u ++ r) := by
    refine ⟨s.bytes.drop (magicBytes ++ u).length, ?_⟩
    conv_lhs => rw [← List.take_append_drop (magicBytes ++ u).length s.bytes]
    rw [hb.bytes, List.append_assoc]
  obtain ⟨l, e, t, hp⟩ := parses_total hg.lawful hg.nil r
  have hall := happ r l e t hp
  have htl : t.length ≤ r.length := by
    obtain ⟨w, hw, -⟩ := parses_append hg.lawful hg.nil hp
    rw [hw, List.length_append]; omega
  refine ⟨l, e, _, readAll_of_parses hg.lawful hg.nil (t := t) ?_ ?_, ?_, ?_⟩
  · show magicLen ≤ s.bytes.length
    rw [hr, magic_len]; omega
  · show Parses cd (s.bytes.drop magicLen) _ _ t
    rw [hr, drop_magic]; exact hall
  · show (magicBytes ++ u).length ≤ s.bytes.length - t.length
    rw [hr, magic_len, magic_len, List.length_append]; omega
  · rw [hr]; exact contents_of_parses hg.lawful hg.nil hall

theorem begins_call (hg : GoodCodec cd dom) {u : Bytes} {l0} (hu : Parses cd u l0 none []) {s : SharedFile} (hb : Begins cd u s)
    (x : SysCall) : Begins cd u (s.call cd x) := by
  unfold SharedFile.call
  cases hp : s.pos x.store with
  | none => exact hb
  | some p =>
    have hpp := hb.pos _ _ hp
    cases x with
    | write h b =>
      show Begins cd u (if b = [] then s else _)
      by_cases hbn : b = []
      · rw [if_pos hbn]; exact hb
      · rw [if_neg hbn]
        have := write_keeps (⟨s.bytes, p⟩ : File) b hpp hb.len
        exact begins_put hb this.1 this.2.1
    | cut h =>
      have := setLen_keeps (⟨s.bytes, p⟩ : File) hpp hb.len
      exact begins_put hb this.1 hpp
    | read h =>
      obtain ⟨l, e, q, h1, h2, -⟩ := begins_read hg hu hb p
      show Begins cd u (match readAll cd ⟨s.bytes, p⟩ with | none => s | some (_, _, f) => s.put h f)
      rw [h1]
      exact begins_put hb rfl h2

/-- **C83** whatever the stores on a file do, in whatever order the system calls of their appends and their readings come, and at
whatever call any of them dies: what was in the file when they had all read it stays, at the beginning of what anyone reads -/
theorem C83_earlier_stays (hg : GoodCodec cd dom) {b : Bytes} {l0} (h0 : contents cd b = some (l0, none)) (pos : Nat → Option Nat)
    (hpos : ∀ h p, pos h = some p → b.length ≤ p) (l : List SysCall) :
    ∃ l' e, contents cd ((⟨b, pos⟩ : SharedFile).calls cd l).bytes = some (l0 ++ l', e) := by
  obtain ⟨u, t, rfl, hu⟩ := contents_some hg.lawful hg.nil h0
  obtain rfl := parses_none_rest hg hu
  have hb : Begins cd u ⟨magicBytes ++ u, pos⟩ := ⟨List.take_length .., hpos⟩
  have key : ∀ (l : List SysCall) (s : SharedFile), Begins cd u s → Begins cd u (s.calls cd l) := by
    intro l
    induction l with
    | nil => intro s hs; exact hs
    | cons x l ih => intro s hs; exact ih _ (begins_call hg hu hs x)
  obtain ⟨l', e, q, -, -, h⟩ := begins_read hg hu (key l _ hb) 0
  exact ⟨l', e, h⟩

/-! ### what a mixture consists of -/

theorem write_byte (f : File) (b : Bytes) {k : Nat} {x} (h : (f.write b).bytes[k]? = some x) :
    x = 0 ∨ f.bytes[k]? = some x ∨ ∃ i, k = f.pos + i ∧ b[i]? = some x := by
  unfold File.write at h
  have h : (f.bytes.take f.pos ++ List.replicate (f.pos - f.bytes.length) 0 ++ b ++ f.bytes.drop (f.pos + b.length))[k]? = some x := h
  rw [List.append_assoc, List.append_assoc, List.getElem?_append] at h
  split at h
  · right; left
    rw [List.getElem?_take] at h
    split at h
    · exact h
    · cases h
  · next h1 =>
    rw [List.length_take] at h h1
    rw [List.getElem?_append] at h
    split at h
    · left
      exact (List.mem_replicate.1 (List.mem_of_getElem? h)).2
    · next h2 =>
      rw [List.length_replicate] at h h2
      rw [List.getElem?_append] at h
      split at h
      · right; right
        exact ⟨_, by omega, h⟩
      · next h3 =>
        right; left
        rw [List.getElem?_drop] at h
        rw [← h]
        congr 1
        omega

theorem setLen_byte (f : File) (n : Nat) {k : Nat} {x} (h : (f.setLen n).bytes[k]? = some x) : x = 0 ∨ f.bytes[k]? = some x := by
  unfold File.setLen at h
  have h : (f.bytes.take n ++ List.replicate (n - f.bytes.length) 0)[k]? = some x := h
  rw [List.getElem?_append] at h
  split at h
  · right
    rw [List.getElem?_take] at h
    split at h
    · exact h
    · cases h
  · left
    exact (List.mem_replicate.1 (List.mem_of_getElem? h)).2

theorem streamOf_append (h : Nat) (a b : List SysCall) : streamOf h (a ++ b) = streamOf h a ++ streamOf h b := by
  induction a with
  | nil => rfl
  | cons x a ih =>
    cases x with
    | write h' c =>
      show (if h' = h then c ++ streamOf h (a ++ b) else streamOf h (a ++ b)) =
        (if h' = h then c ++ streamOf h a else streamOf h a) ++ streamOf h b
      by_cases hh : h' = h
      · rw [if_pos hh, if_pos hh, ih, List.append_assoc]
      · rw [if_neg hh, if_neg hh, ih]
    | cut h' => exact ih
    | read h' => exact ih

theorem calls_snoc (s : SharedFile) (l : List SysCall) (x : SysCall) : s.calls cd (l ++ [x]) = (s.calls cd l).call cd x := by
  unfold SharedFile.calls; rw [List.foldl_append]; rfl

/-- **C83** of stores that are all at the end of the file: whatever the order of the system calls, the byte at any place behind the former
end is one that one of the stores has written for this place, or zero (where the file was cut before a store went on writing); and a store
is where its own writes have brought it -/
theorem C83_mixture {b : Bytes} (pos : Nat → Option Nat) (hpos : ∀ h p, pos h = some p → p = b.length) (l : List SysCall) (hr : NoReads l) :
    (∀ i x, ((⟨b, pos⟩ : SharedFile).calls cd l).bytes[b.length + i]? = some x →
      x = 0 ∨ ∃ h, pos h ≠ none ∧ (streamOf h l)[i]? = some x) ∧
    (∀ h, ((⟨b, pos⟩ : SharedFile).calls cd l).pos h = (pos h).map fun p => p + (streamOf h l).length) := by
  induction l using List.reverseRecOn with
  | nil =>
    refine ⟨fun i x h => ?_, fun h => ?_⟩
    · have : b[b.length + i]? = some x := h
      rw [List.getElem?_eq_none (by omega)] at this; cases this
    · show pos h = _
      cases pos h <;> rfl
  | append_singleton l c ih =>
    obtain ⟨ih1, ih2⟩ := ih (fun h hh => hr h (List.mem_append.2 (.inl hh)))
    rw [calls_snoc]
    generalize hs : (⟨b, pos⟩ : SharedFile).calls cd l = s at ih1 ih2
    have hold : ∀ {i x}, s.bytes[b.length + i]? = some x → x = 0 ∨ ∃ h, pos h ≠ none ∧ (streamOf h (l ++ [c]))[i]? = some x := by
      intro i x hx
      rcases ih1 i x hx with g | ⟨h, g1, g2⟩
      · exact .inl g
      · refine .inr ⟨h, g1, ?_⟩
        rw [streamOf_append, List.getElem?_append_left (List.getElem?_eq_some_iff.1 g2).1]
        exact g2
    unfold SharedFile.call
    cases hp : s.pos c.store with
    | none =>
      refine ⟨fun i x hx => hold hx, fun h => ?_⟩
      rw [ih2 h]
      cases hph : pos h with
      | none => rfl
      | some p =>
        have hne : c.store ≠ h := by
          rintro rfl
          rw [ih2, hph] at hp; cases hp
        have : streamOf h [c] = [] := by
          cases c with
          | write h' b' =>
            show (if h' = h then _ else _) = _
            exact if_neg (show ¬ h' = h from hne)
          | cut h' => rfl
          | read h' => rfl
        rw [streamOf_append, this, List.append_nil]
    | some p =>
      rw [ih2] at hp
      cases c with
      | read h => exact absurd (List.mem_append.2 (.inr (List.mem_singleton.2 rfl))) (hr h)
      | write h b' =>
        have hp : (pos h).map (fun p => p + (streamOf h l).length) = some p := hp
        obtain ⟨p0, hp0, hp1⟩ := Option.map_eq_some_iff.1 hp
        have hp1 : p0 + (streamOf h l).length = p := hp1
        have hst : ∀ h', streamOf h' [SysCall.write h b'] = if h = h' then b' else [] := by
          intro h'
          show (if h = h' then b' ++ [] else []) = _
          rw [List.append_nil]
        have e0 := hpos h p0 hp0
        show (∀ i x, (if b' = [] then s else s.put h ((⟨s.bytes, p⟩ : File).write b')).bytes[b.length + i]? = some x → _) ∧
          ∀ h', (if b' = [] then s else s.put h ((⟨s.bytes, p⟩ : File).write b')).pos h' = _
        by_cases hbn : b' = []
        · rw [if_pos hbn]
          refine ⟨fun i x hx => hold hx, fun h' => ?_⟩
          rw [ih2 h', streamOf_append, hst, hbn, ite_self, List.append_nil]
        · rw [if_neg hbn]
          refine ⟨fun i x hx => ?_, fun h' => ?_⟩
          · have hx : ((⟨s.bytes, p⟩ : File).write b').bytes[b.length + i]? = some x := hx
            rcases write_byte _ _ hx with g | g | ⟨j, g1, g2⟩
            · exact .inl g
            · exact hold g
            · refine .inr ⟨h, by rw [hp0]; simp, ?_⟩
              have g1 : b.length + i = p + j := g1
              rw [streamOf_append, hst, if_pos rfl, List.getElem?_append_right (by omega)]
              have : i - (streamOf h l).length = j := by omega
              rw [this]; exact g2
          · show (if h' = h then some (p + b'.length) else s.pos h') = _
            by_cases hh : h' = h
            · rw [if_pos hh, hh, hp0, streamOf_append, hst, if_pos rfl, List.length_append]
              show some _ = some _
              rw [← hp1, Nat.add_assoc]
            · rw [if_neg hh, ih2 h', streamOf_append, hst, if_neg (fun e => hh e.symm), List.append_nil]
      | cut h =>
        have hp : (pos h).map (fun p => p + (streamOf h l).length) = some p := hp
        have hst : ∀ h', streamOf h' (l ++ [SysCall.cut h]) = streamOf h' l := by
          intro h'
          rw [streamOf_append]; exact List.append_nil _
        refine ⟨fun i x hx => ?_, fun h' => ?_⟩
        · rcases setLen_byte _ _ hx with g | g
          · exact .inl g
          · exact hold g
        · show (if h' = h then some p else s.pos h') = _
          rw [hst]
          by_cases hh : h' = h
          · rw [if_pos hh, hh, hp]
          · rw [if_neg hh, ih2 h']

/-! ### without overlap -/

theorem calls_append (s : SharedFile) (a b : List SysCall) : s.calls cd (a ++ b) = (s.calls cd a).calls cd b := List.foldl_append ..

theorem put_put (s : SharedFile) (h : Nat) (f g : File) : (s.put h f).put h g = s.put h g := by
  unfold SharedFile.put
  refine congrArg (SharedFile.mk _) (funext fun i => ?_)
  by_cases hi : i = h <;> simp [hi]

theorem write_write (f : File) (a b : Bytes) : (f.write a).write b = f.write (a ++ b) := by
  have hl : (f.bytes.take f.pos ++ List.replicate (f.pos - f.bytes.length) 0 ++ a).length = f.pos + a.length := by
    simp only [List.length_append, List.length_take, List.length_replicate]; omega
  have h := write_at (f.bytes.take f.pos ++ List.replicate (f.pos - f.bytes.length) 0 ++ a) (f.bytes.drop (f.pos + a.length)) b
  rw [hl] at h
  refine Eq.trans h ?_
  unfold File.write
  rw [List.drop_drop, List.length_append, Nat.add_assoc, List.append_assoc _ a b]

theorem put_same (s : SharedFile) (h p : Nat) (hp : s.pos h = some p) : s.put h ⟨s.bytes, p⟩ = s := by
  unfold SharedFile.put
  refine congrArg (SharedFile.mk _) (funext fun i => ?_)
  by_cases hi : i = h
  · rw [if_pos hi, hi, hp]
  · rw [if_neg hi]

theorem put_pos (s : SharedFile) (h : Nat) (f : File) : (s.put h f).pos h = some f.pos := if_pos rfl

theorem call_write (s : SharedFile) (h p : Nat) (hp : s.pos h = some p) (b : Bytes) :
    s.call cd (.write h b) = if b = [] then s else s.put h ((⟨s.bytes, p⟩ : File).write b) := by
  unfold SharedFile.call
  have : s.pos (SysCall.write h b).store = some p := hp
  rw [this]

theorem call_cut (s : SharedFile) (h p : Nat) (hp : s.pos h = some p) :
    s.call cd (.cut h) = s.put h ((⟨s.bytes, p⟩ : File).setLen p) := by
  unfold SharedFile.call
  have : s.pos (SysCall.cut h).store = some p := hp
  rw [this]

/-- the writes of one store, one after the other -/
theorem calls_writes (pieces : List Bytes) : ∀ (s : SharedFile) (h p : Nat), s.pos h = some p →
    s.calls cd (pieces.map (.write h)) =
      if pieces.flatten = [] then s else s.put h ((⟨s.bytes, p⟩ : File).write pieces.flatten) := by
  induction pieces with
  | nil => intro s h p hp; exact (if_pos rfl).symm
  | cons b l ih =>
    intro s h p hp
    show (s.call cd (.write h b)).calls cd (l.map (.write h)) = _
    rw [call_write s h p hp, List.flatten_cons]
    by_cases hb : b = []
    · rw [if_pos hb, ih s h p hp, hb, List.nil_append]
    · rw [if_neg hb, if_neg (fun e => hb (List.append_eq_nil_iff.1 e).1),
        ih _ h _ (put_pos _ _ _)]
      by_cases hl : l.flatten = []
      · rw [if_pos hl, hl, List.append_nil]
      · rw [if_neg hl, put_put]
        exact congrArg _ (write_write ⟨s.bytes, p⟩ b l.flatten)

theorem call_closed (s : SharedFile) (x : SysCall) (hp : s.pos x.store = none) : s.call cd x = s := by
  unfold SharedFile.call; rw [hp]

theorem calls_closed (h : Nat) (l : List SysCall) : ∀ s : SharedFile, s.pos h = none → (∀ x ∈ l, x.store = h) → s.calls cd l = s := by
  induction l with
  | nil => intro s _ _; rfl
  | cons x l ih =>
    intro s hp hx
    show (s.call cd x).calls cd l = s
    have hs := hx x (List.mem_cons_self ..)
    rw [call_closed s x (by rw [hs]; exact hp)]
    exact ih s hp (fun y hy => hx y (List.mem_cons_of_mem _ hy))

theorem appendCalls_store {h : Nat} {pieces : List Bytes} : ∀ x ∈ appendCalls h pieces, x.store = h := by
  intro x hx
  unfold appendCalls at hx
  rcases List.mem_append.1 hx with hx | hx
  · obtain ⟨b, -, rfl⟩ := List.mem_map.1 hx; rfl
  · rw [List.mem_singleton.1 hx]; rfl

/-- **C83** with no call of another store in between, the calls of an append are the append of C70: the writes, in whatever pieces, and
the cut -/
theorem C83_one_at_a_time (hg : GoodCodec cd dom) (s : SharedFile) (h : Nat) {c : KeychainChangeSet K P T} (hc : c.isEmpty = false)
    (hd : dom c) {pieces : List Bytes} (hp : pieces.flatten = cd.enc c) :
    s.calls cd (appendCalls h pieces) = (s.step cd (.append h c)).1 := by
  have hne : pieces.flatten ≠ [] := by
    rw [hp]; exact enc_ne_nil hg.lawful hg.nil hd
  cases hq : s.pos h with
  | none =>
    rw [calls_closed h _ s hq appendCalls_store]
    unfold SharedFile.step
    simp only [hq]
  | some p =>
    unfold appendCalls
    rw [calls_append, calls_writes pieces s h p hq, if_neg hne]
    show (s.put h _).call cd (.cut h) = _
    rw [call_cut _ h _ (put_pos _ _ _), put_put]
    unfold SharedFile.step append
    simp only [hq, hc, Bool.false_eq_true, if_false, hp]
    rfl

/-- **C83** a process that dies between two of these calls leaves the file as C44 has it -/
theorem C83_dies_between (s : SharedFile) {h p : Nat} (hq : s.pos h = some p) {c : KeychainChangeSet K P T} {pieces : List Bytes}
    (hp : pieces.flatten = cd.enc c) (hl : p ≤ s.bytes.length) (n : Nat) (hn : n ≤ pieces.length) :
    ∃ k, k = ((pieces.take n).flatten).length ∧
      (s.calls cd ((appendCalls h pieces).take n)).bytes = crashInAppend cd ⟨s.bytes, p⟩ c k := by
  refine ⟨_, rfl, ?_⟩
  unfold appendCalls
  rw [List.take_append_of_le_length (by rw [List.length_map]; exact hn), ← List.map_take, calls_writes _ s h p hq]
  unfold crashInAppend
  have ht : (cd.enc c).take (pieces.take n).flatten.length = (pieces.take n).flatten := by
    rw [← hp]
    conv_lhs => rw [← List.take_append_drop n pieces, List.flatten_append]
    rw [List.take_left']
    rw [List.take_append_drop]
  rw [ht]
  split
  · next he =>
    rw [he]
    have := write_at (s.bytes.take p) (s.bytes.drop p) []
    rw [List.take_append_drop, List.length_take, Nat.min_eq_left hl] at this
    rw [this]
    simp
  · rfl

/-! ### appends of the same changeset -/

theorem streamOf_filter (h : Nat) (l : List SysCall) : streamOf h (l.filter (fun x => x.store = h)) = streamOf h l := by
  induction l with
  | nil => rfl
  | cons x l ih =>
    by_cases hx : x.store = h
    · rw [List.filter_cons_of_pos (by simpa using hx)]
      cases x with
      | write h' b =>
        show (if h' = h then b ++ streamOf h _ else streamOf h _) = if h' = h then b ++ streamOf h l else streamOf h l
        rw [ih]
      | cut h' => exact ih
      | read h' => exact ih
    · rw [List.filter_cons_of_neg (by simpa using hx), ih]
      cases x with
      | write h' b => exact (if_neg (show ¬ h' = h from hx)).symm
      | cut h' => rfl
      | read h' => rfl

theorem streamOf_appendCalls (h : Nat) (pieces : List Bytes) : streamOf h (appendCalls h pieces) = pieces.flatten := by
  unfold appendCalls
  rw [streamOf_append]
  refine (List.append_nil _).trans ?_
  induction pieces with
  | nil => rfl
  | cons b l ih =>
    show (if h = h then b ++ streamOf h (l.map (.write h)) else _) = _
    rw [if_pos rfl, ih, List.flatten_cons]

theorem cut_last (h : Nat) (pieces : List Bytes) : ∀ (a b : List SysCall), a ++ SysCall.cut h :: b = appendCalls h pieces →
    a = pieces.map (.write h) := by
  unfold appendCalls
  induction pieces with
  | nil =>
    intro a b hab
    cases a with
    | nil => rfl
    | cons x a =>
      have := congrArg List.length hab
      simp at this
  | cons p l ih =>
    intro a b hab
    cases a with
    | nil => injection hab with h1; cases h1
    | cons x a =>
      injection hab with h1 h2
      rw [h1, ih a b h2]; rfl

theorem take_drop_take (e : Bytes) (n m : Nat) : e.take n ++ (e.take m).drop n = e.take (max n m) := by
  by_cases hnm : n ≤ m
  · rw [Nat.max_eq_right hnm]
    conv_rhs => rw [← List.take_append_drop n (e.take m)]
    rw [List.take_take, Nat.min_eq_left hnm]
  · rw [Nat.max_eq_left (by omega), List.drop_eq_nil_of_le (by rw [List.length_take]; omega), List.append_nil]

/-- while several stores write the same bytes -/
structure Filling (b e : Bytes) (pos : Nat → Option Nat) (l : List SysCall) (s : SharedFile) : Prop where
  here : ∃ m, s.bytes = b ++ e.take m ∧ (∀ h, pos h ≠ none → (streamOf h l).length ≤ m ∧ (SysCall.cut h ∈ l → e.length ≤ m))
  at_ : ∀ h, s.pos h = (pos h).map fun p => p + (streamOf h l).length
  part : ∀ h, pos h ≠ none → streamOf h l = e.take (streamOf h l).length

theorem filling (b e : Bytes) (pos : Nat → Option Nat) (hpos : ∀ h p, pos h = some p → p = b.length) {l : List SysCall}
    (hl : AllWrite pos e l) (l1 : List SysCall) : ∀ l2, l = l1 ++ l2 → Filling b e pos l1 ((⟨b, pos⟩ : SharedFile).calls cd l1) := by
  induction l1 using List.reverseRecOn with
  | nil =>
    intro l2 _
    refine ⟨⟨0, (by show b = _; rw [List.take_zero, List.append_nil]), fun h _ => ⟨Nat.le_refl _, fun hc => by cases hc⟩⟩,
      fun h => ?_, fun h _ => rfl⟩
    show pos h = _
    cases pos h <;> rfl
  | append_singleton l1 x ih =>
    intro l2 hl2
    have hf := ih (x :: l2) (by rw [hl2, List.append_assoc]; rfl)
    rw [calls_snoc]
    generalize (⟨b, pos⟩ : SharedFile).calls cd l1 = s at hf
    obtain ⟨⟨m, hm, hm'⟩, hp, hpart⟩ := hf
    -- the calls of a store that is not the one of `x`
    have hother : ∀ h, x.store ≠ h → streamOf h (l1 ++ [x]) = streamOf h l1 := by
      intro h hne
      rw [streamOf_append]
      have : streamOf h [x] = [] := by
        cases x with
        | write h' b' => exact if_neg (show ¬ h' = h from hne)
        | cut h' => rfl
        | read h' => rfl
      rw [this, List.append_nil]
    have hcut : ∀ h, x.store ≠ h → SysCall.cut h ∈ l1 ++ [x] → SysCall.cut h ∈ l1 := by
      intro h hne hc
      rcases List.mem_append.1 hc with hc | hc
      · exact hc
      · rw [← List.mem_singleton.1 hc] at hne; exact absurd rfl hne
    cases hq : pos x.store with
    | none =>
      rw [call_closed s x (by rw [hp, hq]; rfl)]
      have hne : ∀ h, pos h ≠ none → x.store ≠ h := by rintro h h1 rfl; exact h1 hq
      refine ⟨⟨m, hm, fun h hh => ?_⟩, fun h => ?_, fun h hh => ?_⟩
      · rw [hother h (hne h hh)]
        exact ⟨(hm' h hh).1, fun hc => (hm' h hh).2 (hcut h (hne h hh) hc)⟩
      · rw [hp h]
        cases hph : pos h with
        | none => rfl
        | some p => rw [hother h (hne h (by rw [hph]; simp))]
      · rw [hother h (hne h hh)]; exact hpart h hh
    | some q =>
      have hqn : pos x.store ≠ none := by rw [hq]; simp
      have hq0 := hpos _ _ hq
      have hsp : s.pos x.store = some (b.length + (streamOf x.store l1).length) := by rw [hp, hq, hq0]; rfl
      have hfl : (l.filter fun y => y.store = x.store) =
          (l1.filter fun y => y.store = x.store) ++ x :: (l2.filter fun y => y.store = x.store) := by
        rw [hl2, List.filter_append, List.filter_append, List.append_assoc]
        congr 1
        rw [List.filter_cons_of_pos (by simp)]; rfl
      rcases hl _ hqn with h0 | ⟨pieces, hpe, h0⟩
      · rw [hfl] at h0; simp at h0
      have hstr : streamOf x.store l = e := by
        rw [← streamOf_filter, h0, streamOf_appendCalls, hpe]
      rw [hl2, streamOf_append] at hstr
      have hjm := (hm' _ hqn).1
      cases x with
      | read h =>
        have : SysCall.read h ∈ appendCalls h pieces := by
          rw [← show _ = appendCalls h pieces from h0, hfl]; simp
        unfold appendCalls at this
        simp at this
      | write h b' =>
        have hsp : s.pos h = some (b.length + (streamOf h l1).length) := hsp
        have hst1 : streamOf h (l1 ++ [SysCall.write h b']) = streamOf h l1 ++ b' := by
          rw [streamOf_append]
          refine congrArg _ ?_
          show (if h = h then b' ++ [] else []) = _
          rw [if_pos rfl, List.append_nil]
        have hpre : streamOf h l1 ++ b' = e.take (streamOf h l1 ++ b').length := by
          have : streamOf h (l1 ++ [SysCall.write h b']) ++ streamOf h l2 = e := hstr
          rw [hst1] at this
          rw [← this, List.take_left']
          rfl
        have hpart' : ∀ h', pos h' ≠ none → streamOf h' (l1 ++ [SysCall.write h b']) =
            e.take (streamOf h' (l1 ++ [SysCall.write h b'])).length := by
          intro h' hh'
          by_cases hne : h = h'
          · subst hne; rw [hst1]; exact hpre
          · rw [hother h' hne]; exact hpart h' hh'
        have hposs : ∀ h', h ≠ h' → s.pos h' = (pos h').map fun p => p + (streamOf h' (l1 ++ [SysCall.write h b'])).length := by
          intro h' hne
          rw [hother h' hne]; exact hp h'
        rw [call_write s h _ hsp]
        by_cases hbn : b' = []
        · rw [if_pos hbn]
          subst hbn
          rw [List.append_nil] at hst1
          refine ⟨⟨m, hm, fun h' hh' => ?_⟩, fun h' => ?_, hpart'⟩
          · by_cases hne : h = h'
            · subst hne
              rw [hst1]
              refine ⟨hjm, fun hc => (hm' h hh').2 ?_⟩
              simpa using hc
            · rw [hother h' hne]
              exact ⟨(hm' h' hh').1, fun hc => (hm' h' hh').2 (hcut h' hne hc)⟩
          · by_cases hne : h = h'
            · subst hne; rw [hst1]; exact hp h
            · exact hposs h' hne
        · rw [if_neg hbn]
          have hj : (b ++ e.take (streamOf h l1).length).length = b.length + (streamOf h l1).length := by
            rw [List.length_append, ← hpart h hqn]
          have hjm : (streamOf h l1).length ≤ m := hjm
          have hsplit : s.bytes = (b ++ e.take (streamOf h l1).length) ++ (e.take m).drop (streamOf h l1).length := by
            rw [hm, List.append_assoc, take_drop_take, Nat.max_eq_right hjm]
          have hw := write_at (b ++ e.take (streamOf h l1).length) ((e.take m).drop (streamOf h l1).length) b'
          rw [← hsplit, hj] at hw
          have hbytes : ((⟨s.bytes, b.length + (streamOf h l1).length⟩ : File).write b').bytes =
              b ++ e.take (max (streamOf h l1 ++ b').length m) := by
            rw [hw]
            show b ++ _ ++ b' ++ _ = _
            rw [← hpart h hqn, List.drop_drop, ← List.length_append, List.append_assoc b, List.append_assoc b]
            refine congrArg _ ?_
            rw [← take_drop_take, ← hpre]
          refine ⟨⟨_, hbytes, fun h' hh' => ?_⟩, fun h' => ?_, hpart'⟩
          · by_cases hne : h = h'
            · subst hne
              rw [hst1]
              refine ⟨Nat.le_max_left _ _, fun hc => Nat.le_trans ((hm' h hh').2 ?_) (Nat.le_max_right _ _)⟩
              simpa using hc
            · rw [hother h' hne]
              exact ⟨Nat.le_trans (hm' h' hh').1 (Nat.le_max_right _ _), fun hc => Nat.le_trans ((hm' h' hh').2 (hcut h' hne hc)) (Nat.le_max_right _ _)⟩
          · by_cases hne : h = h'
            · subst hne
              rw [put_pos, hst1, show pos h = some q from hq, hq0, List.length_append, hw]
              exact congrArg some (Nat.add_assoc _ _ _)
            · show (if h' = h then _ else s.pos h') = _
              rw [if_neg (fun e => hne e.symm)]
              exact hposs h' hne
      | cut h =>
        have hsp : s.pos h = some (b.length + (streamOf h l1).length) := hsp
        have hst : ∀ h', streamOf h' (l1 ++ [SysCall.cut h]) = streamOf h' l1 := by
          intro h'; rw [streamOf_append]; exact List.append_nil _
        have hmap := cut_last h pieces _ _ (hfl.symm.trans h0)
        have hfull : streamOf h l1 = e := by
          have h1 := streamOf_filter h l1
          rw [show (l1.filter fun x => decide (x.store = h)) = _ from hmap] at h1
          have h2 := streamOf_appendCalls h pieces
          unfold appendCalls at h2
          rw [streamOf_append] at h2
          rw [← h1, ← hpe, ← h2]
          exact (List.append_nil _).symm
        have hjm : (streamOf h l1).length ≤ m := hjm
        rw [hfull] at hjm
        rw [call_cut s h _ hsp]
        have hb : ((⟨s.bytes, b.length + (streamOf h l1).length⟩ : File).setLen (b.length + (streamOf h l1).length)) =
            ⟨s.bytes, b.length + (streamOf h l1).length⟩ := by
          have := setLen_at b e [] (b.length + (streamOf h l1).length) (b.length + (streamOf h l1).length) (by rw [hfull])
          rw [List.append_nil] at this
          rw [hm, List.take_of_length_le hjm]
          exact this
        rw [hb, put_same s h _ hsp]
        refine ⟨⟨m, hm, fun h' hh' => ?_⟩, fun h' => ?_, fun h' hh' => ?_⟩
        · rw [hst]
          exact ⟨(hm' h' hh').1, fun _ => hjm⟩
        · rw [hst]; exact hp h'
        · rw [hst]; exact hpart h' hh'

/-- **C83** stores that are all at the end of the file and that append the same changeset, at the same time: whatever the order of their
system calls, once one of them is done the file holds this changeset, once -/
theorem C83_same_changeset (hg : GoodCodec cd dom) {b : Bytes} {l0} (h0 : contents cd b = some (l0, none)) (pos : Nat → Option Nat)
    (hpos : ∀ h p, pos h = some p → p = b.length) {c : KeychainChangeSet K P T} (hd : dom c) {l : List SysCall}
    (hl : AllWrite pos (cd.enc c) l) {h : Nat} (hh : pos h ≠ none) {l1 l2 : List SysCall} (hl12 : l = l1 ++ l2)
    (hdone : SysCall.cut h ∈ l1) :
    contents cd ((⟨b, pos⟩ : SharedFile).calls cd l1).bytes = some (l0 ++ [c], none) := by
  obtain ⟨⟨m, hm, hm'⟩, -, -⟩ := filling (cd := cd) b (cd.enc c) pos hpos hl l1 l2 hl12
  rw [hm, List.take_of_length_le ((hm' h hh).2 hdone)]
  obtain ⟨u, t, rfl, hu⟩ := contents_some hg.lawful hg.nil h0
  obtain rfl := parses_none_rest hg hu
  obtain ⟨v, hv, happ⟩ := parses_append hg.lawful hg.nil hu
  rw [List.append_nil] at hv
  subst hv
  have h1 := happ (cd.enc c) [c] none [] (by
    have := parses_enc hg.lawful hd (Parses.done (cd := cd)); rwa [List.append_nil] at this)
  rw [List.append_assoc]
  exact contents_of_parses hg.lawful hg.nil h1

end

/-! ### what overlapping appends can do -/

section Examples
open Verif.Cli

/-- the changeset of a revealed address -/
def revealed (k : Keychain) (n : Nat) : KeychainChangeSet Keychain TxHeight CliTx := .ofAdditions (OMap.empty.insert k n)

/-- a file that holds one changeset, and the two stores 0 and 1, which have read it -/
def twoStores : SharedFile :=
  ⟨magicBytes ++ cliCodec.enc (revealed .external 4), fun h => if h < 2 then some (magicBytes ++ cliCodec.enc (revealed .external 4)).length else none⟩

/-- the writes bincode makes for `revealed .external 5`, `revealed .internal 7` and `revealed .internal 70000` -/
def pieces5 : List Bytes := [[1], [0], [5], [0], [0], [0], [0]]
def pieces7 : List Bytes := [[1], [1], [7], [0], [0], [0], [0]]
def pieces70000 : List Bytes := [[1], [1], [252], [112, 17, 1, 0], [0], [0], [0], [0]]

/-- the store 0 appends `revealed .external 5` while the store 1 appends `revealed .internal 7` -/
def mixedCalls : List SysCall :=
  [.write 1 [1], .write 1 [1], .write 0 [1], .write 0 [0], .write 0 [5], .write 1 [7], .write 1 [0], .write 0 [0], .write 0 [0], .write 1 [0],
   .write 1 [0], .write 1 [0], .cut 1, .write 0 [0], .write 0 [0], .cut 0]

/-- the store 0 appends `revealed .external 5` while the store 1 appends `revealed .internal 70000` -/
def lostCalls : List SysCall :=
  [.write 0 [1], .write 0 [0], .write 0 [5], .write 1 [1], .write 1 [1], .write 1 [252], .write 1 [112, 17, 1, 0], .write 1 [0], .write 1 [0],
   .write 1 [0], .write 1 [0], .cut 1, .write 0 [0], .write 0 [0], .write 0 [0], .write 0 [0], .cut 0]

/-- **C83** (finding) two overlapping appends, both of which succeed, can leave a changeset in the file that neither of the two stores
has written: one reveals an external address of index 5, the other an internal one of index 7, the file has an external one of index 7 -/
theorem C83_mixed : ∃ (s : SharedFile) (l0 : List (KeychainChangeSet Keychain TxHeight CliTx))
    (c0 c1 : KeychainChangeSet Keychain TxHeight CliTx) (p0 p1 : List Bytes) (l : List SysCall) (c : KeychainChangeSet Keychain TxHeight CliTx),
    (∀ h p, s.pos h = some p → p = s.bytes.length) ∧ s.pos 0 ≠ none ∧ s.pos 1 ≠ none ∧ contents cliCodec s.bytes = some (l0, none) ∧
    p0.flatten = cliCodec.enc c0 ∧ p1.flatten = cliCodec.enc c1 ∧
    l.filter (fun x => x.store = 0) = appendCalls 0 p0 ∧ l.filter (fun x => x.store = 1) = appendCalls 1 p1 ∧
    contents cliCodec (s.calls cliCodec l).bytes = some (l0 ++ [c], none) ∧
    c.derivationIndices ≠ c0.derivationIndices ∧ c.derivationIndices ≠ c1.derivationIndices := by
  refine ⟨twoStores, [revealed .external 4], revealed .external 5, revealed .internal 7, pieces5, pieces7, mixedCalls, revealed .external 7,
    ?_, ?_, ?_, ?_, ?_, ?_, ?_, ?_, ?_, ?_, ?_⟩
  · intro h p hp
    unfold twoStores at hp ⊢
    simp only at hp ⊢
    split at hp
    · exact (Option.some.inj hp).symm
    · cases hp
  all_goals decide +kernel

/-- **C83** (finding) … or a file from which neither of the two changesets can be read -/
theorem C83_lost_both : ∃ (s : SharedFile) (l0 : List (KeychainChangeSet Keychain TxHeight CliTx))
    (c0 c1 : KeychainChangeSet Keychain TxHeight CliTx) (p0 p1 : List Bytes) (l : List SysCall),
    (∀ h p, s.pos h = some p → p = s.bytes.length) ∧ s.pos 0 ≠ none ∧ s.pos 1 ≠ none ∧ contents cliCodec s.bytes = some (l0, none) ∧
    p0.flatten = cliCodec.enc c0 ∧ p1.flatten = cliCodec.enc c1 ∧
    l.filter (fun x => x.store = 0) = appendCalls 0 p0 ∧ l.filter (fun x => x.store = 1) = appendCalls 1 p1 ∧
    contents cliCodec (s.calls cliCodec l).bytes = some (l0, some .eof) := by
  refine ⟨twoStores, [revealed .external 4], revealed .external 5, revealed .internal 70000, pieces5, pieces70000, lostCalls,
    ?_, ?_, ?_, ?_, ?_, ?_, ?_, ?_, ?_⟩
  · intro h p hp
    unfold twoStores at hp ⊢
    simp only at hp ⊢
    split at hp
    · exact (Option.some.inj hp).symm
    · cases hp
  all_goals decide +kernel

/-- the hypotheses of C83 are met: an interleaving of two appends of the same changeset, and what is in the file after it and during it -/
example : AllWrite twoStores.pos (cliCodec.enc (revealed .external 5))
      [.write 0 [1], .write 1 [1, 0], .write 0 [0, 5, 0], .write 0 [0, 0, 0], .cut 0, .write 1 [5, 0, 0, 0, 0], .cut 1] ∧
    CliFits (revealed .external 5) ∧ (revealed .external 5).isEmpty = false ∧
    contents cliCodec twoStores.bytes = some ([revealed .external 4], none) ∧
    contents cliCodec (twoStores.calls cliCodec [.write 0 [1], .write 1 [1, 0], .write 0 [0, 5, 0]]).bytes =
      some ([revealed .external 4], some .eof) := by
  refine ⟨?_, ?_, by decide +kernel, by decide +kernel, by decide +kernel⟩
  · intro h hh
    unfold twoStores at hh
    simp only at hh
    by_cases h0 : h = 0
    · subst h0; exact .inr ⟨[[1], [0, 5, 0], [0, 0, 0]], by decide +kernel, by decide +kernel⟩
    · by_cases h1 : h = 1
      · subst h1; exact .inr ⟨[[1, 0], [5, 0, 0, 0, 0]], by decide +kernel, by decide +kernel⟩
      · rw [if_neg (by omega)] at hh; exact absurd rfl hh
  · exact fits_gen (fun _ => true) _ (by decide +kernel)

end Examples

end Verif.Props
