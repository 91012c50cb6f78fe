import Verif.Props.Exchange
import Verif.Lemmas.Electrum
import Verif.Spec.Insertion
import Mathlib.Data.List.Sort

/-!
# Property C75: the order of insertions does not matter for the result, only for whether they are accepted
-/

set_option linter.unusedSectionVars false

namespace Verif.Props
open Verif Verif.Spec

section chain
open Verif.SparseChain
variable {P : Type} [LinearOrder P] [ChainPosition P] [LawfulChainPosition P]

/-- the standing assumptions on a chain without a checkpoint limit -/
def Sane (c : SparseChain P) : Prop := HeightsOk c ∧ Consistent c ∧ c.checkpointLimit = none

def EntryOk : Entry P → Prop
  | .tx _ p => ∀ h, ChainPosition.height p = .confirmed h → h < u32Max
  | .block b => b.height < u32Max

/-- when one insertion is accepted -/
def Accepts (c : SparseChain P) : Entry P → Prop
  | .tx t p => ¬ TooHigh c p ∧ ¬ ConfirmedElsewhere c t p
  | .block b => ¬ TipConflicts c b

/-- `c'` is `c` with the entry in it -/
def With (c c' : SparseChain P) : Entry P → Prop
  | .tx t p => c'.txPosition t = some p ∧ (∀ t', t' ≠ t → c'.txPosition t' = c.txPosition t') ∧
      ∀ k, c'.checkpointAt k = c.checkpointAt k
  | .block b => (∀ k, c'.checkpointAt k = if k = b.height then some b else c.checkpointAt k) ∧
      ∀ t, c'.txPosition t = c.txPosition t

theorem insertOne_spec {c : SparseChain P} (hs : Sane c) (e : Entry P) (he : EntryOk e) (ho : HashOrder (Txid × P)) :
    (Accepts c e ∧ ∃ c', insertOne c e ho = some c' ∧ Sane c' ∧ With c c' e) ∨
    (¬ Accepts c e ∧ insertOne c e ho = none) := by
  obtain ⟨hok, hc, hl⟩ := hs
  have hp := positionsAgree_of_consistent hc
  have hlim : Limited c := fun n hn => by rw [hl] at hn; cases hn
  cases e with
  | tx t p =>
    have hok' := step_heightsOk hok hc (.insertTx t p ho) he
    have hc' := step_consistent c (.insertTx t p ho) hc
    have hok' : HeightsOk (c.insertTx t p ho).1 := hok'
    have hc' : Consistent (c.insertTx t p ho).1 := hc'
    have h1 := C12_too_high_iff c hok hp t p ho
    have h2 := C12_moved_iff c hok hp t p ho
    have h0 := C12_insert_tx_no_panic c hok hp t p ho
    have h3 := C12_insert_tx_effect c hok hp hlim t p ho
    have h4 : (c.insertTx t p ho).1.checkpointLimit = none := by
      unfold SparseChain.insertTx applyOk
      split
      · rw [applyChangeset_limit]; exact hl
      · exact hl
    cases hr : c.insertTx t p ho with
    | mk c' r =>
      rw [hr] at h0 h1 h2 h3 h4 hok' hc'
      cases r with
      | panic => exact absurd rfl h0
      | ok cs =>
        left
        refine ⟨⟨fun hh => ?_, fun hh => ?_⟩, c', by simp only [insertOne, hr], ⟨hok', hc', h4⟩, h3 cs rfl⟩
        · obtain ⟨_, _, _, h⟩ := h1.2 hh; cases h
        · by_cases hth : TooHigh c p
          · obtain ⟨_, _, _, h⟩ := h1.2 hth; cases h
          · obtain ⟨_, _, _, h⟩ := h2.2 ⟨hth, hh⟩; cases h
      | err x =>
        right
        refine ⟨fun ha => ?_, by simp only [insertOne, hr]⟩
        cases x with
        | txTooHigh a b d => exact ha.1 (h1.1 ⟨a, b, d, rfl⟩)
        | txMovedUnexpectedly a b d => exact ha.2 (h2.1 ⟨a, b, d, rfl⟩).2
  | block b =>
    have hok' := step_heightsOk hok hc (.insertCheckpoint b ho) he
    have hc' := step_consistent c (.insertCheckpoint b ho) hc
    have hok' : HeightsOk (c.insertCheckpoint b ho).1 := hok'
    have hc' : Consistent (c.insertCheckpoint b ho).1 := hc'
    obtain ⟨h0, h1⟩ := C13_insert_checkpoint_outcome c hok hp b ho
    have h3 := C13_insert_checkpoint_effect c hok hp hl b ho
    have h4 : (c.insertCheckpoint b ho).1.checkpointLimit = none := by
      unfold SparseChain.insertCheckpoint applyOk
      split
      · rw [applyChangeset_limit]; exact hl
      · exact hl
    cases hr : c.insertCheckpoint b ho with
    | mk c' r =>
      rw [hr] at h0 h1 h3 h4 hok' hc'
      cases r with
      | panic => exact absurd rfl h0
      | ok cs =>
        left
        have hn : ¬ TipConflicts c b := fun hh => by obtain ⟨e, h⟩ := h1.2 hh; cases h
        exact ⟨hn, c', by simp only [insertOne, hr], ⟨hok', hc', h4⟩, h3 hn⟩
      | err x =>
        right
        exact ⟨fun ha => ha (h1.1 ⟨x, rfl⟩), by simp only [insertOne, hr]⟩

abbrev Entries (P : Type) [LinearOrder P] := List (Entry P × HashOrder (Txid × P))

theorem inserts_cons {e : Entry P × HashOrder (Txid × P)} {l : Entries P} {x : Entry P} :
    Inserts (e :: l) x ↔ x = e.1 ∨ Inserts l x := by
  unfold Inserts
  constructor
  · rintro ⟨ho, h⟩
    rcases List.mem_cons.1 h with h | h
    · exact Or.inl (by rw [← h])
    · exact Or.inr ⟨ho, h⟩
  · rintro (h | ⟨ho, h⟩)
    · exact ⟨e.2, by rw [h]; exact List.mem_cons_self⟩
    · exact ⟨ho, List.mem_cons_of_mem _ h⟩

theorem coherent_tail {e : Entry P × HashOrder (Txid × P)} {l : Entries P} (h : Coherent (e :: l)) : Coherent l :=
  ⟨fun b b' h1 h2 => h.1 b b' (inserts_cons.2 (Or.inr h1)) (inserts_cons.2 (Or.inr h2)),
   fun t p p' h1 h2 => h.2 t p p' (inserts_cons.2 (Or.inr h1)) (inserts_cons.2 (Or.inr h2))⟩

theorem entriesOk_cons {e : Entry P × HashOrder (Txid × P)} {l : Entries P} (h : EntriesOk (e :: l)) :
    EntryOk e.1 ∧ EntriesOk l := by
  refine ⟨?_, fun b hb => h.1 b (inserts_cons.2 (Or.inr hb)), fun t p k hb => h.2 t p k (inserts_cons.2 (Or.inr hb))⟩
  obtain ⟨e, ho⟩ := e
  cases e with
  | tx t p => exact fun k hk => h.2 t p k (inserts_cons.2 (Or.inl rfl)) hk
  | block b => exact h.1 b (inserts_cons.2 (Or.inl rfl))

/-- the result of accepted insertions -/
theorem insertAll_result {l : Entries P} : ∀ {c c' : SparseChain P}, Sane c → EntriesOk l → Coherent l →
    insertAll c l = some c' → Sane c' ∧
    (∀ b, Inserts l (.block b) → c'.checkpointAt b.height = some b) ∧
    (∀ k, (∀ b, Inserts l (.block b) → b.height ≠ k) → c'.checkpointAt k = c.checkpointAt k) ∧
    (∀ t p, Inserts l (.tx t p) → c'.txPosition t = some p) ∧
    (∀ t, (∀ p, ¬ Inserts l (.tx t p)) → c'.txPosition t = c.txPosition t) := by
  induction l with
  | nil =>
    intro c c' hs _ _ h
    cases h
    refine ⟨hs, ?_, fun _ _ => rfl, ?_, fun _ _ => rfl⟩
    · rintro b ⟨_, h⟩; cases h
    · rintro t p ⟨_, h⟩; cases h
  | cons e l ih =>
    intro c c' hs hok hco h
    obtain ⟨he, hok'⟩ := entriesOk_cons hok
    obtain ⟨c1, h1, h2⟩ := Option.bind_eq_some_iff.1 h
    rcases insertOne_spec hs e.1 he e.2 with ⟨-, c1', h1', hs1, hw⟩ | ⟨-, hn⟩
    · rw [h1] at h1'; cases h1'
      obtain ⟨hs', r1, r2, r3, r4⟩ := ih hs1 hok' (coherent_tail hco) h2
      refine ⟨hs', fun b hb => ?_, fun k hk => ?_, fun t p hp => ?_, fun t ht => ?_⟩
      · by_cases hin : Inserts l (.block b)
        · exact r1 b hin
        · rcases inserts_cons.1 hb with he | hb'
          · rw [← he] at hw
            rw [r2 b.height]
            · rw [hw.1]; simp
            · intro b' hb' hh
              have := hco.1 b' b (inserts_cons.2 (Or.inr hb')) hb hh
              rw [this] at hb'; exact hin hb'
          · exact absurd hb' hin
      · rw [r2 k (fun b hb => hk b (inserts_cons.2 (Or.inr hb)))]
        obtain ⟨e, ho⟩ := e
        cases e with
        | tx t p => exact hw.2.2 k
        | block b =>
          rw [hw.1]
          have := hk b (inserts_cons.2 (Or.inl rfl))
          rw [if_neg (fun hh => this hh.symm)]
      · by_cases hin : Inserts l (.tx t p)
        · exact r3 t p hin
        · rcases inserts_cons.1 hp with he | hp'
          · rw [← he] at hw
            rw [r4 t]
            · exact hw.1
            · intro p' hp'
              have := hco.2 t p' p (inserts_cons.2 (Or.inr hp')) hp
              rw [this] at hp'; exact hin hp'
          · exact absurd hp' hin
      · rw [r4 t (fun p hp => ht p (inserts_cons.2 (Or.inr hp)))]
        obtain ⟨e, ho⟩ := e
        cases e with
        | tx t' p => exact hw.2.1 t (fun hh => ht p (inserts_cons.2 (Or.inl (by rw [hh]))))
        | block b => exact hw.2 t
    · rw [h1] at hn; cases hn

/-- **C75** after accepted insertions every inserted block is at its height and every inserted transaction at its position;
nothing else has changed -/
theorem C75_result (c c' : SparseChain P) (l : Entries P) (hok : HeightsOk c) (hp : PositionsAgree c)
    (hl : c.checkpointLimit = none) (he : EntriesOk l) (hco : Coherent l) (h : insertAll c l = some c') :
    (∀ b, Inserts l (.block b) → c'.checkpointAt b.height = some b) ∧
    (∀ k, (∀ b, Inserts l (.block b) → b.height ≠ k) → c'.checkpointAt k = c.checkpointAt k) ∧
    (∀ t p, Inserts l (.tx t p) → c'.txPosition t = some p) ∧
    (∀ t, (∀ p, ¬ Inserts l (.tx t p)) → c'.txPosition t = c.txPosition t) :=
  (insertAll_result ⟨hok, consistent_of_positionsAgree hp, hl⟩ he hco h).2

/-- **C75** two callers that insert the same things, in whatever order, have the same chain afterwards, if neither was
refused; whatever the hash orders -/
theorem C75_order (c c' d' : SparseChain P) (l m : Entries P) (hok : HeightsOk c) (hp : PositionsAgree c)
    (hl : c.checkpointLimit = none) (he : EntriesOk l) (hco : Coherent l)
    (hsame : ∀ e, Inserts l e ↔ Inserts m e)
    (h : insertAll c l = some c') (hm : insertAll c m = some d') : c' = d' := by
  have hs : Sane c := ⟨hok, consistent_of_positionsAgree hp, hl⟩
  have he' : EntriesOk m := ⟨fun b hb => he.1 b ((hsame _).2 hb), fun t p k hb => he.2 t p k ((hsame _).2 hb)⟩
  have hco' : Coherent m := ⟨fun b b' h1 h2 => hco.1 b b' ((hsame _).2 h1) ((hsame _).2 h2),
    fun t p p' h1 h2 => hco.2 t p p' ((hsame _).2 h1) ((hsame _).2 h2)⟩
  obtain ⟨s1, a1, a2, a3, a4⟩ := insertAll_result hs he hco h
  obtain ⟨s2, b1, b2, b3, b4⟩ := insertAll_result hs he' hco' hm
  refine chain_ext s1.2.1 s2.2.1 (fun k => ?_) (fun t => ?_) (s1.2.2.trans s2.2.2.symm)
  · by_cases hk : ∃ b, Inserts l (.block b) ∧ b.height = k
    · obtain ⟨b, hb, rfl⟩ := hk
      rw [a1 b hb, b1 b ((hsame _).1 hb)]
    · have hk' : ∀ b, Inserts l (.block b) → b.height ≠ k := fun b hb hh => hk ⟨b, hb, hh⟩
      rw [a2 k hk', b2 k (fun b hb => hk' b ((hsame _).2 hb))]
  · by_cases ht : ∃ p, Inserts l (.tx t p)
    · obtain ⟨p, hb⟩ := ht
      rw [a3 t p hb, b3 t p ((hsame _).1 hb)]
    · have ht' : ∀ p, ¬ Inserts l (.tx t p) := fun p hb => ht ⟨p, hb⟩
      rw [a4 t ht', b4 t (fun p hb => ht' p ((hsame _).2 hb))]

/-! ### which orders are accepted -/

theorem tipConflicts_iff {c : SparseChain P} {b : BlockId} :
    TipConflicts c b ↔ IsTip c b.height ∧ ∃ x, c.checkpointAt b.height = some x ∧ x ≠ b := by
  unfold TipConflicts
  constructor
  · rintro ⟨x, hx, hne⟩
    obtain ⟨h1, h2⟩ := Electrum.latestCheckpoint_eq.1 hx
    exact ⟨h1, _, h2, fun hh => hne (by rw [← hh])⟩
  · rintro ⟨h1, x, h2, hne⟩
    have hh := Electrum.checkpointAt_height h2
    refine ⟨x.hash, Electrum.latestCheckpoint_eq.2 ⟨h1, ?_⟩, fun hx => hne ?_⟩
    · rw [h2]; obtain ⟨xh, xx⟩ := x; simp only at hh; rw [hh]
    · obtain ⟨xh, xx⟩ := x; obtain ⟨bh, bx⟩ := b; simp only at hh hx; rw [hh, hx]

theorem tooHigh_iff {c : SparseChain P} {p : P} {h : Nat} (hh : ChainPosition.height p = .confirmed h) :
    ¬ TooHigh c p ↔ ∃ k, HasCp c k ∧ h ≤ k := by
  unfold TooHigh
  constructor
  · intro hn
    by_contra hk
    refine hn ⟨h, hh, fun tip ht => ?_⟩
    by_contra hle
    exact hk ⟨tip, ht.1, by omega⟩
  · rintro ⟨k, hk, hle⟩ ⟨h', hh', hall⟩
    rw [hh] at hh'; cases hh'
    obtain ⟨t, ht, hkt⟩ := exists_tip hk
    have := hall t ht
    omega

theorem with_hasCp {c c' : SparseChain P} {e : Entry P} (hw : With c c' e) (k : Nat) :
    HasCp c' k ↔ HasCp c k ∨ ∃ b, e = .block b ∧ b.height = k := by
  unfold HasCp
  cases e with
  | tx t p => rw [hw.2.2]; simp
  | block b =>
    rw [hw.1]
    by_cases hk : k = b.height
    · rw [if_pos hk]
      exact ⟨fun _ => Or.inr ⟨b, rfl, hk.symm⟩, fun _ => ⟨b, rfl⟩⟩
    · rw [if_neg hk]
      refine ⟨Or.inl, ?_⟩
      rintro (h | ⟨b', hb', h⟩)
      · exact h
      · cases hb'; exact absurd h.symm hk

theorem accepted_of_blocksFirst {l : Entries P} : ∀ {c : SparseChain P}, Sane c → EntriesOk l → Coherent l →
    Acceptable c l → BlocksFirst l → ∃ c', insertAll c l = some c' := by
  induction l with
  | nil => intro c _ _ _ _ _; exact ⟨c, rfl⟩
  | cons e l ih =>
    intro c hs hok hco ha hf
    obtain ⟨he, hok'⟩ := entriesOk_cons hok
    obtain ⟨hfirst, hrest⟩ := List.pairwise_cons.1 hf
    have hacc : Accepts c e.1 := by
      obtain ⟨e, ho⟩ := e
      cases e with
      | tx t p =>
        have hin : Inserts ((Entry.tx t p, ho) :: l) (.tx t p) := inserts_cons.2 (Or.inl rfl)
        refine ⟨fun hth => ?_, fun ⟨q, h, h1, h2, h3⟩ => h2 (ha.2.2 t p q h hin h1 h3)⟩
        have hth' := hth
        obtain ⟨h, hh, _⟩ := hth
        refine (tooHigh_iff hh).2 ?_ hth'
        rcases ha.2.1 t p h hin hh with h | ⟨b, hb, _⟩
        · exact h
        · rcases inserts_cons.1 hb with h | ⟨ho', h⟩
          · cases h
          · exact absurd (hfirst _ h) (by simp [MayPrecede])
      | block b =>
        show ¬ TipConflicts c b
        rw [tipConflicts_iff]
        rintro ⟨h1, x, h2, h3⟩
        obtain ⟨b', hb', hlt⟩ := ha.1 b x (inserts_cons.2 (Or.inl rfl)) h1 h2 h3
        rcases inserts_cons.1 hb' with h | ⟨ho', h⟩
        · cases h; omega
        · have : b'.height ≤ b.height := hfirst _ h
          omega
    rcases insertOne_spec hs e.1 he e.2 with ⟨-, c1, h1, hs1, hw⟩ | ⟨hn, -⟩
    · have ha1 : Acceptable c1 l := by
        refine ⟨fun b x hb ht hx hne => ?_, fun t p h hp hh => ?_, fun t p q h hp hq hh => ?_⟩
        · exfalso
          obtain ⟨e, ho⟩ := e
          cases e with
          | tx t p =>
            obtain ⟨ho', hb'⟩ := hb
            exact absurd (hfirst _ hb') (by simp [MayPrecede])
          | block b0 =>
            have hle : b.height ≤ b0.height := by obtain ⟨ho', hb'⟩ := hb; exact hfirst _ hb'
            have hge := ht.2 b0.height ((with_hasCp hw _).2 (Or.inr ⟨b0, rfl, rfl⟩))
            have heq : b = b0 := hco.1 b b0 (inserts_cons.2 (Or.inr hb)) (inserts_cons.2 (Or.inl rfl)) (by omega)
            rw [hw.1, if_pos (by rw [heq])] at hx
            cases hx
            exact hne heq.symm
        · rcases ha.2.1 t p h (inserts_cons.2 (Or.inr hp)) hh with ⟨k, hk, hle⟩ | ⟨b, hb, hle⟩
          · exact Or.inl ⟨k, (with_hasCp hw k).2 (Or.inl hk), hle⟩
          · rcases inserts_cons.1 hb with h | h
            · exact Or.inl ⟨b.height, (with_hasCp hw _).2 (Or.inr ⟨b, h.symm, rfl⟩), hle⟩
            · exact Or.inr ⟨b, h, hle⟩
        · obtain ⟨e, ho⟩ := e
          cases e with
          | tx t0 p0 =>
            by_cases ht : t = t0
            · subst ht
              rw [hw.1] at hq; cases hq
              exact hco.2 t _ _ (inserts_cons.2 (Or.inl rfl)) (inserts_cons.2 (Or.inr hp))
            · rw [hw.2.1 t ht] at hq
              exact ha.2.2 t p q h (inserts_cons.2 (Or.inr hp)) hq hh
          | block b =>
            rw [hw.2 t] at hq
            exact ha.2.2 t p q h (inserts_cons.2 (Or.inr hp)) hq hh
      obtain ⟨c', hc'⟩ := ih hs1 hok' (coherent_tail hco) ha1 hrest
      exact ⟨c', Option.bind_eq_some_iff.2 ⟨c1, h1, hc'⟩⟩
    · exact absurd hacc hn

theorem acceptable_of_accepted {l : Entries P} : ∀ {c c' : SparseChain P}, Sane c → EntriesOk l → Coherent l →
    insertAll c l = some c' → Acceptable c l := by
  induction l with
  | nil =>
    intro c c' _ _ _ _
    refine ⟨?_, ?_, ?_⟩
    · rintro b x ⟨_, h⟩; cases h
    · rintro t p h ⟨_, h⟩; cases h
    · rintro t p q h ⟨_, h⟩; cases h
  | cons e l ih =>
    intro c c' hs hok hco h
    obtain ⟨he, hok'⟩ := entriesOk_cons hok
    obtain ⟨c1, h1, h2⟩ := Option.bind_eq_some_iff.1 h
    rcases insertOne_spec hs e.1 he e.2 with ⟨hacc, c1', h1', hs1, hw⟩ | ⟨-, hn⟩
    · rw [h1] at h1'; cases h1'
      obtain ⟨a1, a2, a3⟩ := ih hs1 hok' (coherent_tail hco) h2
      obtain ⟨e, ho⟩ := e
      refine ⟨fun b x hb ht hx hne => ?_, fun t p h hp hh => ?_, fun t p q n hp hq hh => ?_⟩
      · rcases inserts_cons.1 hb with h | hb'
        · have h : Entry.block b = e := h
          subst h
          exact absurd (tipConflicts_iff.2 ⟨ht, x, hx, hne⟩) hacc
        · cases e with
          | tx t p =>
            obtain ⟨b', hb'', hlt⟩ := a1 b x hb'
              ⟨(with_hasCp hw _).2 (Or.inl ht.1), fun k hk => by
                rcases (with_hasCp hw k).1 hk with h | ⟨_, h, _⟩
                · exact ht.2 k h
                · cases h⟩ (by rw [hw.2.2]; exact hx) hne
            exact ⟨b', inserts_cons.2 (Or.inr hb''), hlt⟩
          | block b0 =>
            rcases Nat.lt_trichotomy b0.height b.height with hlt | heq | hgt
            · obtain ⟨b', hb'', hlt⟩ := a1 b x hb'
                ⟨(with_hasCp hw _).2 (Or.inl ht.1), fun k hk => by
                  rcases (with_hasCp hw k).1 hk with h | ⟨_, h, h'⟩
                  · exact ht.2 k h
                  · cases h; omega⟩ (by rw [hw.1, if_neg (by omega)]; exact hx) hne
              exact ⟨b', inserts_cons.2 (Or.inr hb''), hlt⟩
            · have : b0 = b := hco.1 b0 b (inserts_cons.2 (Or.inl rfl)) hb heq
              subst this
              exact absurd (tipConflicts_iff.2 ⟨ht, x, hx, hne⟩) hacc
            · exact ⟨b0, inserts_cons.2 (Or.inl rfl), hgt⟩
      · rcases inserts_cons.1 hp with h' | hp'
        · have h' : Entry.tx t p = e := h'
          subst h'
          exact Or.inl ((tooHigh_iff hh).1 hacc.1)
        · rcases a2 t p h hp' hh with ⟨k, hk, hle⟩ | ⟨b, hb, hle⟩
          · rcases (with_hasCp hw k).1 hk with hk | ⟨b, hb, hk⟩
            · exact Or.inl ⟨k, hk, hle⟩
            · exact Or.inr ⟨b, inserts_cons.2 (Or.inl hb.symm), by omega⟩
          · exact Or.inr ⟨b, inserts_cons.2 (Or.inr hb), hle⟩
      · rcases inserts_cons.1 hp with h' | hp'
        · have h' : Entry.tx t p = e := h'
          subst h'
          by_contra hne
          exact hacc.2 ⟨q, n, hq, hne, hh⟩
        · cases e with
          | tx t0 p0 =>
            by_cases ht : t = t0
            · subst ht
              have : p0 = p := hco.2 t p0 p (inserts_cons.2 (Or.inl rfl)) hp
              subst this
              by_contra hne
              exact hacc.2 ⟨q, n, hq, hne, hh⟩
            · exact a3 t p q n hp' (by rw [hw.2.1 t ht]; exact hq) hh
          | block b => exact a3 t p q n hp' (by rw [hw.2 t]; exact hq) hh
    · rw [h1] at hn; cases hn

theorem inserts_perm {l m : Entries P} (h : l.Perm m) (e : Entry P) : Inserts l e ↔ Inserts m e :=
  ⟨fun ⟨ho, hh⟩ => ⟨ho, h.mem_iff.1 hh⟩, fun ⟨ho, hh⟩ => ⟨ho, h.mem_iff.2 hh⟩⟩

theorem acceptable_congr {c : SparseChain P} {l m : Entries P} (h : ∀ e, Inserts l e ↔ Inserts m e) (ha : Acceptable c l) :
    Acceptable c m := by
  refine ⟨fun b x hb ht hx hne => ?_, fun t p k hp hh => ?_, fun t p q k hp => ha.2.2 t p q k ((h _).2 hp)⟩
  · obtain ⟨b', hb', hlt⟩ := ha.1 b x ((h _).2 hb) ht hx hne
    exact ⟨b', (h _).1 hb', hlt⟩
  · rcases ha.2.1 t p k ((h _).2 hp) hh with h1 | ⟨b, hb, hle⟩
    · exact Or.inl h1
    · exact Or.inr ⟨b, (h _).1 hb, hle⟩

theorem entriesOk_congr {l m : Entries P} (h : ∀ e, Inserts l e ↔ Inserts m e) (he : EntriesOk l) : EntriesOk m :=
  ⟨fun b hb => he.1 b ((h _).2 hb), fun t p k hb => he.2 t p k ((h _).2 hb)⟩

theorem coherent_congr {l m : Entries P} (h : ∀ e, Inserts l e ↔ Inserts m e) (hco : Coherent l) : Coherent m :=
  ⟨fun b b' h1 h2 => hco.1 b b' ((h _).2 h1) ((h _).2 h2), fun t p p' h1 h2 => hco.2 t p p' ((h _).2 h1) ((h _).2 h2)⟩

/-- **C75** the recommended order: if the same things can be inserted in any order at all, then inserting the blocks from the
highest down and then the transactions is accepted too, with the same result -/
theorem C75_blocks_first (c c' : SparseChain P) (l m : Entries P) (hok : HeightsOk c) (hp : PositionsAgree c)
    (hl : c.checkpointLimit = none) (he : EntriesOk l) (hco : Coherent l)
    (hsame : ∀ e, Inserts l e ↔ Inserts m e) (h : insertAll c l = some c') (hf : BlocksFirst m) :
    insertAll c m = some c' := by
  have hs : Sane c := ⟨hok, consistent_of_positionsAgree hp, hl⟩
  obtain ⟨d, hd⟩ := accepted_of_blocksFirst hs (entriesOk_congr hsame he) (coherent_congr hsame hco)
    (acceptable_congr hsame (acceptable_of_accepted hs he hco h)) hf
  rw [C75_order c c' d l m hok hp hl he hco hsame h hd]
  exact hd

/-- any list of entries has a recommended order -/
theorem exists_blocksFirst (l : Entries P) : ∃ m, m.Perm l ∧ BlocksFirst m := by
  classical
  let r : (Entry P × HashOrder (Txid × P)) → (Entry P × HashOrder (Txid × P)) → Prop := fun e e' => MayPrecede e.1 e'.1
  haveI : Std.Total r := ⟨by
    rintro ⟨a, _⟩ ⟨b, _⟩
    cases a <;> cases b <;> simp [r, MayPrecede, Nat.le_total]⟩
  haveI : IsTrans _ r := ⟨by
    rintro ⟨a, _⟩ ⟨b, _⟩ ⟨d, _⟩ h1 h2
    cases a <;> cases b <;> cases d <;> simp_all [r, MayPrecede]
    exact le_trans h2 h1⟩
  exact ⟨l.insertionSort r, List.perm_insertionSort r l, List.pairwise_insertionSort r l⟩

/-- **C75** whether there is an order in which everything is accepted: no block contradicts the tip without a higher block
coming with it, every confirmed transaction has a block at or above it, and none is confirmed elsewhere already -/
theorem C75_acceptable_iff (c : SparseChain P) (l : Entries P) (hok : HeightsOk c) (hp : PositionsAgree c)
    (hl : c.checkpointLimit = none) (he : EntriesOk l) (hco : Coherent l) :
    (∃ m c', m.Perm l ∧ insertAll c m = some c') ↔ Acceptable c l := by
  have hs : Sane c := ⟨hok, consistent_of_positionsAgree hp, hl⟩
  constructor
  · rintro ⟨m, c', hm, h⟩
    have hml : ∀ e, Inserts m e ↔ Inserts l e := inserts_perm hm
    have hlm : ∀ e, Inserts l e ↔ Inserts m e := fun e => (hml e).symm
    exact acceptable_congr hml (acceptable_of_accepted hs (entriesOk_congr hlm he) (coherent_congr hlm hco) h)
  · intro ha
    obtain ⟨m, hm, hf⟩ := exists_blocksFirst l
    have hlm : ∀ e, Inserts l e ↔ Inserts m e := fun e => (inserts_perm hm e).symm
    obtain ⟨c', h⟩ := accepted_of_blocksFirst hs (entriesOk_congr hlm he) (coherent_congr hlm hco) (acceptable_congr hlm ha) hf
    exact ⟨m, c', hm, h⟩

/-! ### concrete lists -/

/-- a reorganisation of the tip of `exChain` inserted by hand: a higher block, another block at the old tip's height, two
transactions -/
def exEntries : Entries TxHeight :=
  [(.block ⟨9, 19⟩, HashOrder.id _), (.block ⟨8, 28⟩, HashOrder.id _), (.tx 9 (.confirmed 9), HashOrder.id _),
   (.tx 6 .unconfirmed, HashOrder.id _)]

theorem exEntries_inserts (e : Entry TxHeight) : Inserts exEntries e ↔ e ∈ exEntries.map Prod.fst := by
  unfold Inserts
  constructor
  · rintro ⟨ho, h⟩; exact List.mem_map.2 ⟨_, h, rfl⟩
  · intro h
    obtain ⟨x, hx, he⟩ := List.mem_map.1 h
    exact ⟨x.2, by rw [← he]; exact hx⟩

theorem exEntries_coherent : Coherent exEntries := by
  have hb : ∀ b, Inserts exEntries (.block b) → b = ⟨9, 19⟩ ∨ b = ⟨8, 28⟩ := by
    intro b h
    rw [exEntries_inserts] at h
    simpa [exEntries] using h
  have ht : ∀ t p, Inserts exEntries (.tx t p) → (t = 9 ∧ p = .confirmed 9) ∨ (t = 6 ∧ p = .unconfirmed) := by
    intro t p h
    rw [exEntries_inserts] at h
    simpa [exEntries] using h
  constructor
  · intro b b' h h' he
    rcases hb b h with rfl | rfl <;> rcases hb b' h' with rfl | rfl <;> first | rfl | (revert he; decide)
  · intro t p p' h h'
    rcases ht t p h with ⟨rfl, rfl⟩ | ⟨rfl, rfl⟩ <;> rcases ht _ p' h' with ⟨he, rfl⟩ | ⟨he, rfl⟩ <;>
      first | rfl | (revert he; decide)

theorem exEntries_ok : EntriesOk exEntries := by
  constructor
  · intro b h
    rw [exEntries_inserts] at h
    have : b = ⟨9, 19⟩ ∨ b = ⟨8, 28⟩ := by simpa [exEntries] using h
    rcases this with rfl | rfl <;> decide
  · intro t p k h hk
    rw [exEntries_inserts] at h
    have : (t = 9 ∧ p = .confirmed 9) ∨ (t = 6 ∧ p = .unconfirmed) := by simpa [exEntries] using h
    rcases this with ⟨-, rfl⟩ | ⟨-, rfl⟩
    · cases hk; decide
    · cases hk

theorem exEntries_blocksFirst : BlocksFirst exEntries := by
  unfold BlocksFirst exEntries
  simp [MayPrecede]

example : ((insertAll exChain exEntries).map fun c => (c.checkpoints.entries, c.txids)) =
    some ([(1, 11), (5, 15), (8, 28), (9, 19)],
      [(.confirmed 3, 7), (.confirmed 8, 8), (.confirmed 9, 9), (.unconfirmed, 6)]) := by decide

/-- the same things in an order that is accepted too, with the same result -/
example : insertAll exChain [exEntries[3], exEntries[0], exEntries[2], exEntries[1]] = insertAll exChain exEntries := by
  decide

/-- **C75** acceptance does depend on the order: the conflicting block first, or the transaction first, is refused -/
theorem C75_some_orders_refused :
    (∃ c', insertAll exChain exEntries = some c') ∧
    insertAll exChain [exEntries[1], exEntries[0], exEntries[2], exEntries[3]] = none ∧
    insertAll exChain [exEntries[2], exEntries[0], exEntries[1], exEntries[3]] = none :=
  ⟨Option.isSome_iff_exists.1 (by decide), by decide, by decide⟩

/-- **C75** for insertions that contradict each other the order matters: two blocks of one height below the tip, the last
one wins -/
theorem C75_incoherent_last_wins : ∃ (a b : Entry TxHeight × HashOrder (Txid × TxHeight)) (c' d' : SparseChain TxHeight),
    insertAll exChain [a, b] = some c' ∧ insertAll exChain [b, a] = some d' ∧ c' ≠ d' := by
  obtain ⟨c', hc⟩ := Option.isSome_iff_exists.1 (show (insertAll exChain
    [(.block ⟨4, 1⟩, HashOrder.id _), (.block ⟨4, 2⟩, HashOrder.id _)]).isSome = true by decide)
  obtain ⟨d', hd⟩ := Option.isSome_iff_exists.1 (show (insertAll exChain
    [(.block ⟨4, 2⟩, HashOrder.id _), (.block ⟨4, 1⟩, HashOrder.id _)]).isSome = true by decide)
  refine ⟨_, _, c', d', hc, hd, fun h => ?_⟩
  have : insertAll exChain [(.block ⟨4, 1⟩, HashOrder.id _), (.block ⟨4, 2⟩, HashOrder.id _)] ≠
    insertAll exChain [(.block ⟨4, 2⟩, HashOrder.id _), (.block ⟨4, 1⟩, HashOrder.id _)] := by decide
  exact this (by rw [hc, hd, h])

example : Acceptable exChain exEntries :=
  (C75_acceptable_iff exChain exEntries exChain_heightsOk exChain_positionsAgree (by decide) exEntries_ok
    exEntries_coherent).1 (by
      obtain ⟨c', h⟩ := C75_some_orders_refused.1
      exact ⟨exEntries, c', List.Perm.refl _, h⟩)

end chain
end Verif.Props
