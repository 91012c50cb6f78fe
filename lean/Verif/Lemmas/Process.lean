import Verif.Spec.Process
import Verif.Props.FileStore
import Verif.Props.Cli

/-!
# Whole runs of the programs: what they leave in the file
-/

set_option linter.unusedSectionVars false

namespace Verif.Cli
open Verif Verif.CoinSelect Verif.Planner Verif.Spec Verif.Props KeychainStore

section disk
variable {T P : Type} [LinearOrder P] [LinearOrder T]
  {cd : Codec (KeychainChangeSet Keychain P T)} {dom : KeychainChangeSet Keychain P T → Prop}

/-- the store stands after the entries `l`, before the bytes `t` -/
def AtTail (cd : Codec (KeychainChangeSet Keychain P T)) (f : KeychainStore) (l : List (KeychainChangeSet Keychain P T)) (t : Bytes) : Prop :=
  ∃ u, f = ⟨magicBytes ++ u ++ t, (magicBytes ++ u).length⟩ ∧
    ∀ r l' e' t', Parses cd r l' e' t' → Parses cd (u ++ r) (l ++ l') e' t'

theorem append_ok_bytes {f f' : KeychainStore} {c : KeychainChangeSet Keychain P T} {x : WriteFault} (hc : c.isEmpty = false)
    (h : append cd f c x = (f', .ok ())) : f' = (append cd f c .none).1 := by
  unfold append at h ⊢
  simp only [hc, Bool.false_eq_true, if_false] at h ⊢
  cases x <;> simp only [Prod.mk.injEq] at h
  · exact h.1.symm
  · cases h.2
  · cases h.2
  · exact h.1.symm

theorem AtTail.stored (hg : GoodCodec cd dom) {f : KeychainStore} {l t c} (h : AtTail cd f l t) (hc : c.isEmpty = false) (hd : dom c) :
    AtTail cd (append cd f c .none).1 (l ++ [c]) [] := by
  obtain ⟨u, rfl, hu⟩ := h
  rw [append_at cd _ t c hc]
  refine ⟨u ++ cd.enc c, by simp only [List.append_assoc, List.append_nil, List.length_append]; congr 1; omega, ?_⟩
  intro r l' e' t' hp
  have := hu _ _ _ _ (parses_enc hg.lawful hd hp)
  simp only [List.append_assoc, List.cons_append, List.nil_append]
  exact this

theorem AtTail.contents (hg : GoodCodec cd dom) {f : KeychainStore} {l t} (h : AtTail cd f l t) {l' e' t'} (hp : Parses cd t l' e' t') :
    contents cd f.bytes = some (l ++ l', e') := by
  obtain ⟨u, rfl, hu⟩ := h
  have := hu _ _ _ _ hp
  simp only [List.append_assoc]
  exact contents_of_parses hg.lawful hg.nil this

theorem AtTail.readable (hg : GoodCodec cd dom) {f : KeychainStore} {l t} (h : AtTail cd f l t) :
    ∃ l' e', KeychainStore.contents cd f.bytes = some (l ++ l', e') := by
  obtain ⟨l', e', t', hp⟩ := parses_total hg.lawful hg.nil t
  exact ⟨l', e', h.contents hg hp⟩

/-- whatever a write that does not succeed leaves, what was there before is still readable -/
theorem AtTail.failed (hg : GoodCodec cd dom) {f : KeychainStore} {l t} (h : AtTail cd f l t) {c} (hc : c.isEmpty = false) (x : WriteFault) :
    ∃ b, (append cd f c x).1.bytes = f.bytes.take f.pos ++ b ∧ (∃ k, b = (cd.enc c).take k ++ t.drop ((cd.enc c).take k).length ∨
        b = cd.enc c) ∧
      ∀ l' e' t', Parses cd b l' e' t' → KeychainStore.contents cd (append cd f c x).1.bytes = some (l ++ l', e') := by
  obtain ⟨u, rfl, hu⟩ := h
  have key : ∀ b l' e' t', Parses cd b l' e' t' → KeychainStore.contents cd (magicBytes ++ u ++ b) = some (l ++ l', e') := by
    intro b l' e' t' hp
    rw [List.append_assoc]
    exact contents_of_parses hg.lawful hg.nil (hu _ _ _ _ hp)
  have htake : ∀ b : Bytes, List.take (magicBytes ++ u).length (magicBytes ++ u ++ t) ++ b = magicBytes ++ u ++ b := by
    intro b; rw [List.take_left' rfl]
  simp only [htake]
  unfold append
  simp only [hc, Bool.false_eq_true, if_false]
  cases x with
  | none =>
    refine ⟨cd.enc c, ?_, ⟨0, .inr rfl⟩, ?_⟩ <;> (try intro l' e' t' hp) <;> simp only [write_at] <;> rw [setLen_at _ _ _ _ _ rfl]
    exact key _ _ _ _ hp
  | sync =>
    refine ⟨cd.enc c, ?_, ⟨0, .inr rfl⟩, ?_⟩ <;> (try intro l' e' t' hp) <;> simp only [write_at] <;> rw [setLen_at _ _ _ _ _ rfl]
    exact key _ _ _ _ hp
  | write k =>
    refine ⟨(cd.enc c).take k ++ t.drop ((cd.enc c).take k).length, ?_, ⟨k, .inl rfl⟩, ?_⟩ <;> (try intro l' e' t' hp) <;>
      simp only [write_at]
    · rw [List.append_assoc]
    · rw [List.append_assoc]; exact key _ _ _ _ hp
  | truncate =>
    refine ⟨cd.enc c ++ t.drop (cd.enc c).length, ?_, ⟨(cd.enc c).length, .inl (by rw [List.take_length])⟩, ?_⟩ <;>
      (try intro l' e' t' hp) <;> simp only [write_at]
    · rw [List.append_assoc]
    · rw [List.append_assoc]; exact key _ _ _ _ hp

/-- … and if nothing unreadable was there, then either nothing of it or all of it can be read -/
theorem AtTail.failed_clean (hg : GoodCodec cd dom) {f : KeychainStore} {l} (h : AtTail cd f l []) {c} (hc : c.isEmpty = false)
    (hd : dom c) (x : WriteFault) :
    (∃ e, KeychainStore.contents cd (append cd f c x).1.bytes = some (l, e)) ∨
      KeychainStore.contents cd (append cd f c x).1.bytes = some (l ++ [c], none) := by
  obtain ⟨b, -, ⟨k, hb⟩, h2⟩ := h.failed hg hc x
  have full : Parses cd (cd.enc c) [c] none [] := by
    have := parses_enc hg.lawful hd (Parses.done (cd := cd)); rwa [List.append_nil] at this
  rcases hb with hb | hb
  · rw [List.drop_nil, List.append_nil] at hb
    subst hb
    by_cases hk : k < (cd.enc c).length
    · by_cases h0 : k = 0
      · subst h0
        refine .inl ⟨none, ?_⟩
        have := h2 [] none [] .done
        rwa [List.append_nil] at this
      · have := h2 _ _ _ (parses_torn hg.lawful hd (Nat.pos_of_ne_zero h0) hk)
        rw [List.append_nil] at this
        exact .inl ⟨_, this⟩
    · rw [List.take_of_length_le (by omega)] at h2
      exact .inr (h2 _ _ _ full)
  · subst hb
    exact .inr (h2 _ _ _ full)

/-! ### the shape of what a command does -/

/-- only the last effect is a write that did not succeed, and nothing empty is written -/
def Shaped (es : List (Event P T)) : Prop :=
  (∀ pre c post, es = pre ++ .storeFailed c :: post → post = []) ∧
  ∀ c, (Event.stored c ∈ es ∨ Event.storeFailed c ∈ es) → c.isEmpty = false

theorem Shaped.tail {e : Event P T} {es : List (Event P T)} (h : Shaped (e :: es)) : Shaped es :=
  ⟨fun pre c post he => h.1 (e :: pre) c post (by rw [he]; rfl), fun c hc => h.2 c (by
    rcases hc with hc | hc
    · exact .inl (List.mem_cons_of_mem _ hc)
    · exact .inr (List.mem_cons_of_mem _ hc))⟩

theorem shaped_nil : Shaped ([] : List (Event P T)) :=
  ⟨fun pre c post h => by simp at h, fun c h => by simp at h⟩

theorem shaped_cut {es es' : List (Event P T)} (h : Shaped es) (hc : Cut es es') : Shaped es' := by
  cases hc with
  | between hp =>
    obtain ⟨r, rfl⟩ := hp
    refine ⟨fun pre c post he => ?_, fun c hm => h.2 c (hm.imp (fun h => List.mem_append_left _ h) (fun h => List.mem_append_left _ h))⟩
    have := h.1 pre c (post ++ r) (by rw [he]; simp)
    exact (List.append_eq_nil_iff.1 this).1
  | @writing pre c post =>
    refine ⟨fun pre' c' post' he => ?_, fun c' hm => ?_⟩
    · rcases List.append_eq_append_iff.mp he with ⟨q, h1, h2⟩ | ⟨q, h1, h2⟩
      · cases q with
        | nil => simp only [List.nil_append, List.cons.injEq] at h2; exact h2.2.symm
        | cons y q => simp at h2
      · cases q with
        | nil => simp only [List.nil_append, List.cons.injEq] at h2; exact h2.2
        | cons y q =>
          simp only [List.cons_append, List.cons.injEq] at h2
          have := h.1 pre' c' (q ++ .stored c :: post) (by rw [h1, h2.1]; simp)
          simp at this
    · simp only [List.mem_append, List.mem_singleton, reduceCtorEq, or_false, Event.storeFailed.injEq] at hm
      rcases hm with hm | hm | rfl
      · exact h.2 c' (.inl (List.mem_append_left _ hm))
      · exact h.2 c' (.inr (List.mem_append_left _ hm))
      · exact h.2 c' (.inl (by simp))

/-! ### the effects on the file -/

theorem effects_grow (hg : GoodCodec cd dom) {f f' : KeychainStore} {es : List (Event P T)} (h : Effects cd f es f')
    (hs : Shaped es) (hd : ∀ c, Event.stored c ∈ es → dom c) {l t} (ha : AtTail cd f l t) :
    ∃ l' e', contents cd f'.bytes = some (l ++ diskOf es ++ l', e') := by
  induction h generalizing l t with
  | nil => obtain ⟨l', e', h⟩ := ha.readable hg; exact ⟨l', e', by simpa [diskOf] using h⟩
  | @stored f f' f'' c es x hx _ ih =>
    have hc := hs.2 c (.inl (by simp))
    rw [append_ok_bytes hc hx] at ih
    obtain ⟨l', e', h'⟩ := ih hs.tail (fun c hc => hd c (by simp [hc])) (ha.stored hg hc (hd c (by simp)))
    exact ⟨l', e', by rw [h']; simp [diskOf]⟩
  | @failed f f' c es x hx ih =>
    have hn := hs.1 [] c es rfl
    subst hn
    cases hx
    obtain ⟨b, -, -, h2⟩ := ha.failed hg (hs.2 c (.inr (by simp))) x
    obtain ⟨l', e', t', hp⟩ := parses_total hg.lawful hg.nil b
    exact ⟨l', e', by rw [h2 _ _ _ hp]; simp [diskOf]⟩
  | shown _ ih =>
    obtain ⟨l', e', h'⟩ := ih hs.tail (fun c hc => hd c (by simp [hc])) ha
    exact ⟨l', e', by rw [h']; simp [diskOf]⟩
  | broadcast _ ih =>
    obtain ⟨l', e', h'⟩ := ih hs.tail (fun c hc => hd c (by simp [hc])) ha
    exact ⟨l', e', by rw [h']; simp [diskOf]⟩

/-- no failed write: exactly the written changesets are added -/
theorem effects_exact (hg : GoodCodec cd dom) {f f' : KeychainStore} {es : List (Event P T)} (h : Effects cd f es f')
    (hs : Shaped es) (hd : ∀ c, Event.stored c ∈ es → dom c) (hn : ∀ c, Event.storeFailed c ∉ es) {l t} (ha : AtTail cd f l t) :
    (diskOf es ≠ [] → contents cd f'.bytes = some (l ++ diskOf es, none) ∧ AtTail cd f' (l ++ diskOf es) []) ∧
      (diskOf es = [] → f' = f) := by
  induction h generalizing l t with
  | nil => exact ⟨fun h => absurd rfl h, fun _ => rfl⟩
  | @stored f f' f'' c es x hx _ ih =>
    have hc := hs.2 c (.inl (by simp))
    rw [append_ok_bytes hc hx] at ih
    have ha' := ha.stored hg hc (hd c (by simp))
    obtain ⟨i1, i2⟩ := ih hs.tail (fun c hc => hd c (by simp [hc])) (fun c hc => hn c (by simp [hc])) ha'
    refine ⟨fun _ => ?_, fun h => by simp [diskOf] at h⟩
    have e : l ++ diskOf (.stored c :: es) = l ++ [c] ++ diskOf es := by simp [diskOf]
    rw [e]
    by_cases he : diskOf es = []
    · rw [i2 he, he, List.append_nil]
      have := ha'.contents hg .done
      rw [List.append_nil] at this
      exact ⟨this, ha'⟩
    · exact i1 he
  | @failed f f' c es x hx ih => exact absurd (by simp) (hn c)
  | shown _ ih =>
    obtain ⟨i1, i2⟩ := ih hs.tail (fun c hc => hd c (by simp [hc])) (fun c hc => hn c (by simp [hc])) ha
    exact ⟨fun h => i1 (by simpa [diskOf] using h), fun h => i2 (by simpa [diskOf] using h)⟩
  | broadcast _ ih =>
    obtain ⟨i1, i2⟩ := ih hs.tail (fun c hc => hd c (by simp [hc])) (fun c hc => hn c (by simp [hc])) ha
    exact ⟨fun h => i1 (by simpa [diskOf] using h), fun h => i2 (by simpa [diskOf] using h)⟩

theorem survives_append {tr es : List (Event P T)} {l l' : List (KeychainChangeSet Keychain P T)} (h : Survives tr l) (h' : Survives es l') :
    Survives (tr ++ es) (l ++ l') := by
  induction h' with
  | nil => simpa using h
  | stored _ ih => rw [← List.append_assoc, ← List.append_assoc]; exact ih.stored
  | lost _ ih => rw [← List.append_assoc]; exact ih.lost
  | kept _ ih => rw [← List.append_assoc, ← List.append_assoc]; exact ih.kept
  | shown _ ih => rw [← List.append_assoc]; exact ih.shown
  | broadcast _ ih => rw [← List.append_assoc]; exact ih.broadcast

theorem survives_cons_stored {es l} {c : KeychainChangeSet Keychain P T} (h : Survives es l) : Survives (.stored c :: es) (c :: l) :=
  survives_append (.stored (.nil (P := P) (T := T))) h
theorem survives_cons_shown {es} {l : List (KeychainChangeSet Keychain P T)} {k i spk} (h : Survives es l) : Survives (.shown k i spk :: es) l :=
  survives_append (.shown (.nil (P := P) (T := T))) h
theorem survives_cons_broadcast {es} {l : List (KeychainChangeSet Keychain P T)} {tx ok} (h : Survives es l) : Survives (.broadcast tx ok :: es) l :=
  survives_append (.broadcast (.nil (P := P) (T := T))) h

/-- the clean case: a failed write is not the first one after something unreadable -/
theorem effects_clean (hg : GoodCodec cd dom) {f f' : KeychainStore} {es : List (Event P T)} (h : Effects cd f es f')
    (hs : Shaped es) (hd : ∀ c, Event.stored c ∈ es ∨ Event.storeFailed c ∈ es → dom c) {l t e} (ha : AtTail cd f l t)
    (hp : Parses cd t [] e t) (hc : t = [] ∨ ∀ pre c post, es = pre ++ .storeFailed c :: post → diskOf pre ≠ []) :
    ∃ l' e', contents cd f'.bytes = some (l ++ l', e') ∧ Survives es l' := by
  induction h generalizing l t e with
  | nil =>
    have := ha.contents hg hp
    exact ⟨[], e, this, .nil⟩
  | @stored f f' f'' c es x hx _ ih =>
    have hce := hs.2 c (.inl (by simp))
    rw [append_ok_bytes hce hx] at ih
    obtain ⟨l', e', h1, h2⟩ := ih hs.tail (fun c hc => hd c (by
      rcases hc with hc | hc
      · exact .inl (List.mem_cons_of_mem _ hc)
      · exact .inr (List.mem_cons_of_mem _ hc)))
      (ha.stored hg hce (hd c (.inl (by simp)))) .done (.inl rfl)
    exact ⟨c :: l', e', by rw [h1]; simp, survives_cons_stored h2⟩
  | @failed f f' c es x hx ih =>
    have hn := hs.1 [] c es rfl
    subst hn
    cases hx
    rcases hc with rfl | hc
    · rcases ha.failed_clean hg (hs.2 c (.inr (by simp))) (hd c (.inr (by simp))) x with ⟨e', h⟩ | h
      · exact ⟨[], e', by simpa using h, .lost (.nil (P := P) (T := T))⟩
      · exact ⟨[c], none, h, .kept (.nil (P := P) (T := T))⟩
    · exact absurd rfl (hc [] c [] rfl)
  | @shown f f' k i spk es _ ih =>
    obtain ⟨l', e', h1, h2⟩ := ih hs.tail (fun c hc => hd c (by simpa using hc)) ha hp
      (hc.imp id (fun hc pre c post he => by simpa [diskOf] using hc (.shown k i spk :: pre) c post (by rw [he]; rfl)))
    exact ⟨l', e', h1, survives_cons_shown h2⟩
  | @broadcast f f' tx ok es _ ih =>
    obtain ⟨l', e', h1, h2⟩ := ih hs.tail (fun c hc => hd c (by simpa using hc)) ha hp
      (hc.imp id (fun hc pre c post he => by simpa [diskOf] using hc (.broadcast tx ok :: pre) c post (by rw [he]; rfl)))
    exact ⟨l', e', h1, survives_cons_broadcast h2⟩

end disk
end Verif.Cli
