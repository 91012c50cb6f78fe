import Verif.Lemmas.Esplora5
import Mathlib.Data.List.Induction

/-! # Lemmas about the esplora scan: what is inserted when the server does not change -/

namespace Verif.Esplora
open Verif Spec Verif.Props
variable {T : Type} [LinearOrder T] [AsTransaction T] [LawfulTx T]

/-- the update contains exactly the transactions of `S`, as they are in the world -/
structure Has (w : World T) (cps : Nat → Option BlockId) (S : Txid → Prop) (u : Update T) : Prop where
  upd : CUpd u cps w.tip.height
  graph : ∀ x y, u.graph.getTx x = some y → ∃ pl, w.find x = some (y, pl)
  pos : ∀ x p, u.chain.txPosition x = some p ↔ S x ∧ ∃ e, w.find x = some e ∧ p = positionOf e.2

theorem Has.congr {w : World T} {cps : Nat → Option BlockId} {S S' : Txid → Prop} {u : Update T} (h : Has w cps S u)
    (hS : ∀ x, S x ↔ S' x) : Has w cps S' u :=
  ⟨h.upd, h.graph, fun x p => by rw [h.pos, hS]⟩

omit [LinearOrder T] [LawfulTx T] in
theorem position_status {w : World T} (hw : w.Sound) {x : Txid} {t : T} {pl : Place} (h : w.find x = some (t, pl)) :
    mapConfirmationTime (statusOf pl) w.tip.height = positionOf pl := by
  rcases pl with _ | ⟨h', time⟩
  · rfl
  · have := hw.below x t h' time h
    simp [mapConfirmationTime, statusOf, positionOf, this]

theorem reachVia_start {g : TxGraph T} {start acc : Txid → Prop} {c : Txid} (h : ReachVia g start acc c) (hc : acc c) :
    ∃ t, start t ∧ acc t := by
  induction h with
  | start h => exact ⟨_, h, hc⟩
  | step _ hp _ ih => exact ih hp

theorem Has.no_conflict {w : World T} (hw : w.Sound) {cps : Nat → Option BlockId} {S : Txid → Prop} {u : Update T} (h : Has w cps S u)
    {t : T} {pl : Place} (ht : w.find (asTx t).txid = some (t, pl)) (c : Txid) : ¬ ChainConflict u.chain u.graph (asTx t) c := by
  rintro ⟨h1, h2⟩
  obtain ⟨c', ⟨vin, o, ho, ⟨y, hy, hy1, hy2⟩, hne⟩, -⟩ := reachVia_start h2 h1
  obtain ⟨pl', hpl⟩ := h.graph _ _ hy
  exact hne (hw.no_double_spend c' _ _ _ o hpl ht hy1 (List.mem_of_getElem? ho) hy2)

theorem putTx_static {w : World T} (hw : w.Sound) {cps : Nat → Option BlockId} {S : Txid → Prop} {u : Update T} (h : Has w cps S u)
    (o : Orders ConfirmationTime T) {t : T} {pl : Place} (ht : w.find (asTx t).txid = some (t, pl)) :
    ∃ u', putTx o u t (mapConfirmationTime (statusOf pl) w.tip.height) = .ok u' ∧ Has w cps (fun x => S x ∨ x = (asTx t).txid) u' := by
  rw [position_status hw ht]
  obtain ⟨u', h1, h2, h3⟩ := putTx_cases h.upd o t (positionOf pl) (by
    intro k hk
    rcases pl with _ | ⟨h', time⟩
    · cases hk
    · cases hk; exact hw.below _ _ _ _ ht)
  refine ⟨u', h1, ?_⟩
  rcases h3 with ⟨-, hr | hr⟩ | ⟨h4, h5, -, h6⟩
  · obtain ⟨q, k, hq, hne, -⟩ := hr
    obtain ⟨-, e, he, rfl⟩ := (h.pos _ _).1 hq
    rw [ht] at he
    cases he
    exact absurd rfl hne
  · obtain ⟨-, c, hc⟩ := hr
    exact absurd hc (h.no_conflict hw ht c)
  · refine ⟨h2, ?_, ?_⟩
    · intro x y hy
      rw [h4, TxGraph.insertTx_getTx] at hy
      by_cases e : x = (asTx t).txid
      · cases hg : u.graph.getTx x with
        | some y' => rw [hg] at hy; cases hy; exact h.graph x y hg
        | none =>
          rw [hg, if_pos e] at hy
          cases hy
          exact ⟨pl, by rw [e]; exact ht⟩
      · rw [if_neg e, Option.or_none] at hy
        exact h.graph x y hy
    · intro x p
      by_cases e : x = (asTx t).txid
      · subst e
        rw [h5]
        constructor
        · intro hp; cases hp; exact ⟨.inr rfl, _, ht, rfl⟩
        · rintro ⟨-, e, he, rfl⟩; rw [ht] at he; cases he; rfl
      · rw [h6 x e (fun hX => h.no_conflict hw ht x hX.2), h.pos]
        simp [e]

theorem putAll_static {w : World T} (hw : w.Sound) {cps : Nat → Option BlockId} (o : Orders ConfirmationTime T) :
    ∀ (l : List (T × Place)) {S : Txid → Prop} {u : Update T}, Has w cps S u → (∀ e ∈ l, w.find (asTx e.1).txid = some e) →
    ∃ u', putAll o w.tip.height (l.map fun e => (e.1, statusOf e.2)) u = .ok u' ∧
      Has w cps (fun x => S x ∨ ∃ e ∈ l, (asTx e.1).txid = x) u'
  | [], S, u, h, _ => ⟨u, rfl, h.congr (by simp)⟩
  | (t, pl) :: l, S, u, h, hl => by
    obtain ⟨u1, h1, h2⟩ := putTx_static hw h o (hl (t, pl) List.mem_cons_self)
    obtain ⟨u2, h3, h4⟩ := putAll_static hw o l h2 (fun e he => hl e (List.mem_cons_of_mem _ he))
    refine ⟨u2, ?_, h4.congr ?_⟩
    · simp only [List.map_cons, putAll]
      rw [h1]
      exact h3
    · intro x
      simp only [List.mem_cons, exists_eq_or_imp]
      constructor
      · rintro ((h | h) | h)
        · exact .inl h
        · exact .inr (.inl h.symm)
        · exact .inr (.inr h)
      · rintro (h | h | h)
        · exact .inl (.inl h)
        · exact .inl (.inr h.symm)
        · exact .inr h

/-- last active index and number of empty scripts at the end, after a list of scripts -/
def tally (w : World T) (st : Option Nat × Nat) (e : Nat × Script) : Option Nat × Nat :=
  if w.history e.2 = [] then (st.1, st.2 + 1) else (some e.1, 0)

omit [LinearOrder T] [LawfulTx T] in
theorem tally_nil (w : World T) (st : Option Nat × Nat) (e : Nat × Script) (h : w.history e.2 = []) :
    tally w st e = (st.1, st.2 + 1) := if_pos h

omit [LinearOrder T] [LawfulTx T] in
theorem tally_cons (w : World T) (st : Option Nat × Nat) (e : Nat × Script) (h : w.history e.2 ≠ []) :
    tally w st e = (some e.1, 0) := if_neg h

/-- `x` belongs to one of the scripts -/
def InScripts (w : World T) (l : List (Nat × Script)) (x : Txid) : Prop := ∃ e ∈ l, ∃ t ∈ w.history e.2, (asTx t.1).txid = x

theorem handleLoop_static {w : World T} (hw : w.Sound) {cps : Nat → Option BlockId} (o : Orders ConfirmationTime T) :
    ∀ (l : List (Nat × Script)) {S : Txid → Prop} (st : KState T), Has w cps S st.update →
    ∃ st', handleLoop o w.tip.height (l.map fun e : Nat × Script => (e.1, Out.ok ((w.history e.2).map entry))) st = .ok st' ∧
      Has w cps (fun x => S x ∨ InScripts w l x) st'.update ∧
      (st'.lastActive, st'.empty) = l.foldl (tally w) (st.lastActive, st.empty)
  | [], S, st, h => ⟨st, rfl, h.congr (by simp [InScripts]), rfl⟩
  | (i, spk) :: l, S, st, h => by
    simp only [List.map_cons, handleLoop]
    have hmap : ((w.history spk).map entry).map (fun e => (e.tx, e.status)) = (w.history spk).map fun e => (e.1, statusOf e.2) := by
      rw [List.map_map]; rfl
    rw [hmap]
    obtain ⟨u1, h1, h2⟩ := putAll_static hw o (w.history spk) h (fun e he => hw.listed spk e he)
    have key : ∀ st1 : KState T, st1.update = st.update → (st1.lastActive, st1.empty) = tally w (st.lastActive, st.empty) (i, spk) →
        ∃ st', (match putAll o w.tip.height ((w.history spk).map fun e => (e.1, statusOf e.2)) st1.update with
          | .ok u => handleLoop o w.tip.height (l.map fun e : Nat × Script => (e.1, Out.ok ((w.history e.2).map entry))) { st1 with update := u }
          | .error => .error
          | .panic => .panic
          | .pending => .pending) = .ok st' ∧
          Has w cps (fun x => S x ∨ InScripts w ((i, spk) :: l) x) st'.update ∧
          (st'.lastActive, st'.empty) = ((i, spk) :: l).foldl (tally w) (st.lastActive, st.empty) := by
      intro st1 e1 e2
      rw [e1, h1]
      obtain ⟨st', h3, h4, h5⟩ := handleLoop_static hw o l { st1 with update := u1 } h2
      refine ⟨st', h3, h4.congr ?_, ?_⟩
      · intro x
        unfold InScripts
        simp only [List.mem_cons, exists_eq_or_imp]
        exact or_assoc
      · rw [List.foldl_cons, ← e2]
        exact h5
    by_cases he : w.history spk = []
    · rw [if_pos (by simp [he])]
      exact key _ rfl (by rw [tally_nil w _ _ he])
    · rw [if_neg (by simp [he])]
      exact key _ rfl (by rw [tally_cons w _ _ he])

/-- the number of empty scripts at the end -/
theorem tally_empty (w : World T) (l : List (Nat × Script)) (g : Nat) :
    g ≤ (l.foldl (tally w) (none, 0)).2 ↔
      g ≤ l.length ∧ ∀ j, l.length - g ≤ j → j < l.length → ∃ e, l[j]? = some e ∧ w.history e.2 = [] := by
  induction l using List.reverseRecOn generalizing g with
  | nil => simp
  | append_singleton l e ih =>
    rw [List.foldl_append, List.foldl_cons, List.foldl_nil]
    by_cases he : w.history e.2 = []
    · rw [tally_nil _ _ _ he]
      simp only [List.length_append, List.length_cons, List.length_nil]
      cases g with
      | zero => simp; intro j h1 h2; omega
      | succ g =>
        rw [Nat.add_le_add_iff_right]
        rw [ih]
        constructor
        · rintro ⟨h1, h2⟩
          refine ⟨by omega, fun j hj1 hj2 => ?_⟩
          by_cases hj : j < l.length
          · obtain ⟨e', h3, h4⟩ := h2 j (by omega) hj
            exact ⟨e', by rw [List.getElem?_append_left hj]; exact h3, h4⟩
          · have : j = l.length := by omega
            exact ⟨e, by rw [this]; simp, he⟩
        · rintro ⟨h1, h2⟩
          refine ⟨by omega, fun j hj1 hj2 => ?_⟩
          obtain ⟨e', h3, h4⟩ := h2 j (by omega) (by omega)
          exact ⟨e', by rw [List.getElem?_append_left hj2] at h3; exact h3, h4⟩
    · rw [tally_cons _ _ _ he]
      simp only [List.length_append, List.length_cons, List.length_nil, Nat.le_zero]
      constructor
      · rintro rfl; exact ⟨by omega, fun j h1 h2 => by omega⟩
      · rintro ⟨h1, h2⟩
        by_contra hg
        obtain ⟨e', h3, h4⟩ := h2 l.length (by omega) (by omega)
        simp at h3
        subst h3
        exact he h4

/-- the last active index: the index of the last script with transactions -/
theorem tally_active (w : World T) (l : List (Nat × Script)) (i : Nat) :
    (l.foldl (tally w) (none, 0)).1 = some i ↔
      ∃ (n : Nat) (spk : Script), l[n]? = some (i, spk) ∧ w.history spk ≠ [] ∧ ∀ (n' : Nat) (e : Nat × Script), n < n' → l[n']? = some e → w.history e.2 = [] := by
  induction l using List.reverseRecOn with
  | nil => simp
  | append_singleton l e ih =>
    rw [List.foldl_append, List.foldl_cons, List.foldl_nil]
    by_cases he : w.history e.2 = []
    · rw [tally_nil _ _ _ he]
      simp only
      rw [ih]
      constructor
      · rintro ⟨n, spk, h1, h2, h3⟩
        have hn : n < l.length := (List.getElem?_eq_some_iff.1 h1).1
        refine ⟨n, spk, by rw [List.getElem?_append_left hn]; exact h1, h2, ?_⟩
        intro n' e' hn' h4
        by_cases hlt : n' < l.length
        · rw [List.getElem?_append_left hlt] at h4; exact h3 n' e' hn' h4
        · rw [List.getElem?_append_right (by omega)] at h4
          have : n' - l.length = 0 := by
            have := (List.getElem?_eq_some_iff.1 h4).1
            simp at this; omega
          rw [this] at h4; simp at h4; rw [← h4]; exact he
      · rintro ⟨n, spk, h1, h2, h3⟩
        have hn : n < l.length := by
          by_contra hge
          rw [List.getElem?_append_right (by omega)] at h1
          have : n - l.length = 0 := by
            have := (List.getElem?_eq_some_iff.1 h1).1
            simp at this; omega
          rw [this] at h1; simp at h1; rw [h1] at he; exact h2 he
        refine ⟨n, spk, by rw [List.getElem?_append_left hn] at h1; exact h1, h2, ?_⟩
        intro n' e' hn' h4
        have := (List.getElem?_eq_some_iff.1 h4).1
        exact h3 n' e' hn' (by rw [List.getElem?_append_left this]; exact h4)
    · rw [tally_cons _ _ _ he]
      simp only [Option.some.injEq]
      constructor
      · rintro rfl
        refine ⟨l.length, e.2, by simp, he, ?_⟩
        intro n' e' hn' h4
        have := (List.getElem?_eq_some_iff.1 h4).1
        simp at this; omega
      · rintro ⟨n, spk, h1, h2, h3⟩
        have hn : n < l.length + 1 := by
          have := (List.getElem?_eq_some_iff.1 h1).1
          simpa using this
        by_cases hlt : n < l.length
        · exact absurd (h3 l.length e hlt (by simp)) he
        · have : n = l.length := by omega
          subst this
          simp at h1; rw [h1]

end Verif.Esplora
