import Verif.Lemmas.Esplora

/-! # Lemmas about the esplora scan with an arbitrary server: one pass -/

namespace Verif.Esplora
open Verif Spec Verif.Props
variable {T : Type} [LinearOrder T] [AsTransaction T] [LawfulTx T]

/-- every position of the update satisfies `R` -/
def AllPos (R : Txid → ConfirmationTime → Prop) (u : Update T) : Prop := ∀ x p, u.chain.txPosition x = some p → R x p

theorem AllPos.mono {R R' : Txid → ConfirmationTime → Prop} {u : Update T} (h : AllPos R u) (hR : ∀ x p, R x p → R' x p) :
    AllPos R' u := fun x p hx => hR x p (h x p hx)

section
variable {cps : Nat → Option BlockId} {tip h0 : Nat} {R : Txid → ConfirmationTime → Prop}

theorem putTx_keeps {u : Update T} (hu : CUpd u cps tip) (hR : AllPos R u) (ht : h0 ≤ tip) (o : Orders ConfirmationTime T) (t : T)
    (st : Status) (hr : R (asTx t).txid (mapConfirmationTime st h0)) :
    ∃ u', putTx o u t (mapConfirmationTime st h0) = .ok u' ∧ CUpd u' cps tip ∧ AllPos R u' := by
  obtain ⟨u', h1, h2, h3⟩ := putTx_cases hu o t (mapConfirmationTime st h0) (fun h e => le_trans (map_le _ _ _ e) ht)
  refine ⟨u', h1, h2, ?_⟩
  rcases h3 with ⟨rfl, -⟩ | ⟨-, h4, h5, h6⟩
  · exact hR
  · intro x p hx
    by_cases e : x = (asTx t).txid
    · subst e; rw [h4] at hx; cases hx; exact hr
    · by_cases hX : Displaced u t x
      · rw [h5 x hX] at hx; cases hx
      · rw [h6 x e hX] at hx; exact hR x p hx

theorem putAll_keeps (ht : h0 ≤ tip) (o : Orders ConfirmationTime T) : ∀ (l : List (T × Status)) {u : Update T}, CUpd u cps tip →
    AllPos R u → (∀ e ∈ l, R (asTx e.1).txid (mapConfirmationTime e.2 h0)) →
    ∃ u', putAll o h0 l u = .ok u' ∧ CUpd u' cps tip ∧ AllPos R u'
  | [], u, hu, hR, _ => ⟨u, rfl, hu, hR⟩
  | (t, st) :: l, u, hu, hR, hl => by
    obtain ⟨u1, h1, h2, h3⟩ := putTx_keeps hu hR ht o t st (hl _ List.mem_cons_self)
    obtain ⟨u2, h4, h5⟩ := putAll_keeps ht o l h2 h3 (fun e he => hl e (List.mem_cons_of_mem _ he))
    refine ⟨u2, ?_, h5⟩
    simp only [putAll]
    rw [h1]
    exact h4

/-- the index of a used script, by the answers of the threads -/
def FromHandles (l : List (Nat × Out (List (ETx T)))) (A : Nat → Prop) : Prop :=
  ∀ i related, (i, .ok related) ∈ l → related ≠ [] → A i

theorem handleLoop_keeps (ht : h0 ≤ tip) (o : Orders ConfirmationTime T) {A : Nat → Prop} :
    ∀ (l : List (Nat × Out (List (ETx T)))) {st : KState T}, CUpd st.update cps tip → AllPos R st.update →
    (∀ i, st.lastActive = some i → A i) →
    (∀ e ∈ l, e.2 ≠ .panic) → (∀ i r, (i, .ok r) ∈ l → ∀ e ∈ r, R (asTx e.tx).txid (mapConfirmationTime e.status h0)) →
    FromHandles l A →
    handleLoop o h0 l st ≠ .panic ∧ ∀ st', handleLoop o h0 l st = .ok st' → CUpd st'.update cps tip ∧ AllPos R st'.update ∧
      ∀ i, st'.lastActive = some i → A i
  | [], st, hu, hR, hA, _, _, _ => ⟨by simp [handleLoop], fun st' h => by cases h; exact ⟨hu, hR, hA⟩⟩
  | (i, .error) :: l, st, _, _, _, _, _, _ => by simp [handleLoop]
  | (i, .pending) :: l, st, _, _, _, _, _, _ => by simp [handleLoop]
  | (i, .panic) :: l, st, _, _, _, hp, _, _ => absurd rfl (hp _ List.mem_cons_self)
  | (i, .ok related) :: l, st, hu, hR, hA, hp, hl, hf => by
    simp only [handleLoop]
    have hst : ∀ st' : KState T, st'.update = st.update →
        (∀ i, st'.lastActive = some i → A i) →
        (match putAll o h0 (related.map fun e => (e.tx, e.status)) st'.update with
          | .ok u => handleLoop o h0 l { st' with update := u }
          | .error => .error
          | .panic => .panic
          | .pending => .pending) ≠ .panic ∧
        ∀ st'', (match putAll o h0 (related.map fun e => (e.tx, e.status)) st'.update with
          | .ok u => handleLoop o h0 l { st' with update := u }
          | .error => .error
          | .panic => .panic
          | .pending => .pending) = .ok st'' → CUpd st''.update cps tip ∧ AllPos R st''.update ∧
            ∀ i, st''.lastActive = some i → A i := by
      intro st' hs hA'
      obtain ⟨u', h1, h2, h3⟩ := putAll_keeps (u := st'.update) ht o (related.map fun e => (e.tx, e.status)) (by rw [hs]; exact hu)
        (by rw [hs]; exact hR) (by
          intro e he
          obtain ⟨e', he', rfl⟩ := List.mem_map.1 he
          exact hl i related List.mem_cons_self e' he')
      rw [h1]
      exact handleLoop_keeps ht o l (st := { st' with update := u' }) h2 h3 hA' (fun e he => hp e (List.mem_cons_of_mem _ he))
        (fun i r h => hl i r (List.mem_cons_of_mem _ h)) (fun i r h => hf i r (List.mem_cons_of_mem _ h))
    by_cases he : related.isEmpty
    · rw [if_pos he]
      exact hst _ rfl hA
    · rw [if_neg he]
      refine hst _ rfl ?_
      intro j hj
      cases hj
      exact hf i related List.mem_cons_self (by rintro rfl; simp at he)

end

/-- each transaction a thread returns was in one of its answers -/
theorem pageLoop_mem (s : Server T) (t i : Nat) (spk : Script) : ∀ (n page : Nat) (acc : List (ETx T)), acc ≠ [] →
    pageLoop s t i spk n page acc ≠ .panic ∧ ∀ r, pageLoop s t i spk n page acc = .ok r → r ≠ [] ∧
      ∀ e ∈ r, e ∈ acc ∨ ∃ page after l, s.txs t i page spk after = some l ∧ e ∈ l
  | 0, _, _, _ => by simp [pageLoop]
  | n + 1, page, acc, ha => by
    simp only [pageLoop]
    cases hl : acc.getLast? with
    | none => exact absurd (List.getLast?_eq_none_iff.1 hl) ha
    | some last =>
      simp only
      cases hs : s.txs t i page spk (some last.txid) with
      | none => simp
      | some new =>
        simp only
        by_cases hn : new.length < 25
        · rw [if_pos hn]
          refine ⟨by simp, ?_⟩
          intro r hr; cases hr
          refine ⟨by simp [ha], ?_⟩
          intro e he
          rcases List.mem_append.1 he with h | h
          · exact .inl h
          · exact .inr ⟨_, _, _, hs, h⟩
        · rw [if_neg hn]
          obtain ⟨h1, h2⟩ := pageLoop_mem s t i spk n (page + 1) (acc ++ new) (by simp [ha])
          refine ⟨h1, fun r hr => ⟨(h2 r hr).1, fun e he => ?_⟩⟩
          rcases (h2 r hr).2 e he with h | h
          · rcases List.mem_append.1 h with h | h
            · exact .inl h
            · exact .inr ⟨_, _, _, hs, h⟩
          · exact .inr h

theorem relatedTxs_mem (s : Server T) (fuel t i : Nat) (spk : Script) :
    relatedTxs s fuel t i spk ≠ .panic ∧ ∀ r, relatedTxs s fuel t i spk = .ok r →
      (∀ e ∈ r, ∃ page after l, s.txs t i page spk after = some l ∧ e ∈ l) ∧
      (r ≠ [] → ∃ l, s.txs t i 0 spk none = some l ∧ l ≠ []) := by
  unfold relatedTxs
  cases hs : s.txs t i 0 spk none with
  | none => simp
  | some l =>
    simp only
    by_cases hn : 25 ≤ (l.filter (fun e => e.status.confirmed)).length
    · rw [if_pos hn]
      have hne : l ≠ [] := by rintro rfl; simp at hn
      obtain ⟨h1, h2⟩ := pageLoop_mem s t i spk fuel 1 l hne
      refine ⟨h1, fun r hr => ⟨fun e he => ?_, fun _ => ⟨l, rfl, hne⟩⟩⟩
      rcases (h2 r hr).2 e he with h | h
      · exact ⟨_, _, _, hs, h⟩
      · exact h
    · rw [if_neg hn]
      refine ⟨by simp, fun r hr => ?_⟩
      cases hr
      exact ⟨fun e he => ⟨_, _, _, hs, he⟩, fun h => ⟨_, rfl, h⟩⟩

/-- position `p` of `x` was reported from time `lo` on and before `hi` -/
def Rep (s : Server T) (h0 lo hi : Nat) (x : Txid) (p : ConfirmationTime) : Prop :=
  ∃ t tx st, lo ≤ t ∧ t < hi ∧ Gives s t tx st ∧ (asTx tx).txid = x ∧ p = mapConfirmationTime st h0

theorem Rep.mono {s : Server T} {h0 lo hi hi' : Nat} {x : Txid} {p : ConfirmationTime} (h : Rep s h0 lo hi x p) (hh : hi ≤ hi') :
    Rep s h0 lo hi' x p := by
  obtain ⟨t, tx, st, h1, h2, h3⟩ := h
  exact ⟨t, tx, st, h1, lt_of_lt_of_le h2 hh, h3⟩

/-- the server answered with transactions when first asked about the script, from time `lo` on and before `hi` -/
def Active (s : Server T) (lo hi : Nat) (spk : Script) : Prop :=
  ∃ t i l, lo ≤ t ∧ t < hi ∧ s.txs t i 0 spk none = some l ∧ l ≠ []

theorem Active.mono {s : Server T} {lo hi hi' : Nat} {spk : Script} (h : Active s lo hi spk) (hh : hi ≤ hi') : Active s lo hi' spk := by
  obtain ⟨t, i, l, h1, h2, h3⟩ := h
  exact ⟨t, i, l, h1, lt_of_lt_of_le h2 hh, h3⟩

theorem mem_batch {s : Server T} {fuel t : Nat} {spks : List (Nat × Script)} {e : Nat × Out (List (ETx T))}
    (h : e ∈ batch s fuel t spks) : ∃ i spk, (e.1, spk) ∈ spks ∧ e.2 = relatedTxs s fuel t i spk := by
  obtain ⟨⟨⟨j, spk⟩, i⟩, h1, rfl⟩ := List.mem_map.1 h
  exact ⟨i, spk, (List.mem_zipIdx' h1).2 ▸ List.getElem_mem _, rfl⟩

/-- what a loop guarantees, given an update that does so -/
def Good (s : Server T) (cps : Nat → Option BlockId) (tip h0 lo t : Nat) (u : Update T) : Prop :=
  lo ≤ t ∧ CUpd u cps tip ∧ AllPos (Rep s h0 lo t) u

theorem Good.mono {s : Server T} {cps : Nat → Option BlockId} {tip h0 lo t t' : Nat} {u : Update T} (h : Good s cps tip h0 lo t u)
    (ht : t ≤ t') : Good s cps tip h0 lo t' u :=
  ⟨le_trans h.1 ht, h.2.1, h.2.2.mono (fun _ _ hr => hr.mono ht)⟩

section
variable {s : Server T} {cps : Nat → Option BlockId} {tip h0 lo : Nat}

theorem batchLoop_keeps (ht : h0 ≤ tip) (o : Orders ConfirmationTime T) (stopGap par fuel : Nat) (all : List (Nat × Script)) :
    ∀ (n : Nat) (spks : List (Nat × Script)) (st : KState T) (t : Nat), (∀ e ∈ spks, e ∈ all) →
    Good s cps tip h0 lo t st.update →
    (∀ i, st.lastActive = some i → ∃ spk, (i, spk) ∈ all ∧ Active s lo t spk) →
    batchLoop s o h0 stopGap par fuel n spks st t ≠ .panic ∧
    ∀ st' t', batchLoop s o h0 stopGap par fuel n spks st t = .ok (st', t') → Good s cps tip h0 lo t' st'.update ∧
      ∀ i, st'.lastActive = some i → ∃ spk, (i, spk) ∈ all ∧ Active s lo t' spk
  | 0, _, _, _, _, _, _ => by simp [batchLoop]
  | n + 1, spks, st, t, hall, hg, hA => by
    simp only [batchLoop]
    have hg' := hg.mono (Nat.le_succ t)
    obtain ⟨h1, h2⟩ := handleLoop_keeps (R := Rep s h0 lo (t + 1)) ht o (A := fun i => ∃ spk, (i, spk) ∈ all ∧ Active s lo (t + 1) spk)
      (batch s fuel t (spks.take par)) hg'.2.1 hg'.2.2
      (fun i hi => by obtain ⟨spk, a, b⟩ := hA i hi; exact ⟨spk, a, b.mono (Nat.le_succ t)⟩)
      (by
        intro e he
        obtain ⟨i, spk, -, h⟩ := mem_batch he
        rw [h]; exact (relatedTxs_mem s fuel t i spk).1)
      (by
        intro j r hj e he
        obtain ⟨i, spk, -, h⟩ := mem_batch hj
        obtain ⟨page, after, l, h3, h4⟩ := ((relatedTxs_mem s fuel t i spk).2 r h.symm).1 e he
        exact ⟨t, e.tx, e.status, hg.1, Nat.lt_succ_self t, .inl ⟨i, page, spk, after, l, e.txid, h3, h4⟩, rfl, rfl⟩)
      (by
        intro j r hj hne
        obtain ⟨i, spk, hm, h⟩ := mem_batch hj
        obtain ⟨l, h3, h4⟩ := ((relatedTxs_mem s fuel t i spk).2 r h.symm).2 hne
        exact ⟨spk, hall _ (List.mem_of_mem_take hm), t, i, l, hg.1, Nat.lt_succ_self t, h3, h4⟩)
    cases hh : handleLoop o h0 (batch s fuel t (spks.take par)) st with
    | panic => exact absurd hh h1
    | error => simp
    | pending => simp
    | ok st1 =>
      obtain ⟨h3, h4, h5⟩ := h2 st1 hh
      simp only
      by_cases hc : (spks.take par).length = 0 ∨ stopGap ≤ st1.empty
      · rw [if_pos hc]
        refine ⟨by simp, fun st' t' h => ?_⟩
        cases h
        exact ⟨⟨hg'.1, h3, h4⟩, h5⟩
      · rw [if_neg hc]
        exact batchLoop_keeps ht o stopGap par fuel all n (spks.drop par) st1 (t + 1) (fun e he => hall e (List.mem_of_mem_drop he))
          ⟨hg'.1, h3, h4⟩ h5

omit [LawfulTx T] in
theorem batchLoop_time (s : Server T) (o : Orders ConfirmationTime T) (tip stopGap par fuel : Nat) :
    ∀ (n : Nat) (spks : List (Nat × Script)) (st : KState T) (t : Nat) (st' : KState T) (t' : Nat),
    batchLoop s o tip stopGap par fuel n spks st t = .ok (st', t') → t ≤ t'
  | 0, _, _, _, _, _, h => by simp [batchLoop] at h
  | n + 1, spks, st, t, st', t', h => by
    simp only [batchLoop] at h
    cases hh : handleLoop o tip (batch s fuel t (spks.take par)) st with
    | panic => rw [hh] at h; cases h
    | error => rw [hh] at h; cases h
    | pending => rw [hh] at h; cases h
    | ok st1 =>
      rw [hh] at h
      simp only at h
      by_cases hc : (spks.take par).length = 0 ∨ stopGap ≤ st1.empty
      · rw [if_pos hc] at h; cases h; exact Nat.le_succ t
      · rw [if_neg hc] at h
        exact le_trans (Nat.le_succ t) (batchLoop_time s o tip stopGap par fuel n _ st1 (t + 1) st' t' h)

variable {K : Type} [LinearOrder K]

/-- every last active index belongs to a script that has been found active -/
def ActiveOk (s : Server T) (lo t : Nat) (ks : OMap K (List (Nat × Script))) (la : OMap K Nat) : Prop :=
  ∀ k i, la.get k = some i → ∃ l spk, ks.get k = some l ∧ (i, spk) ∈ l ∧ Active s lo t spk

theorem ActiveOk.mono {lo t t' : Nat} {ks : OMap K (List (Nat × Script))} {la : OMap K Nat} (h : ActiveOk s lo t ks la) (ht : t ≤ t') :
    ActiveOk s lo t' ks la := fun k i hk => by
  obtain ⟨l, spk, a, b, c⟩ := h k i hk
  exact ⟨l, spk, a, b, c.mono ht⟩

theorem keychainLoop_keeps (ht : h0 ≤ tip) (o : Orders ConfirmationTime T) (stopGap par fuel : Nat)
    (ks : OMap K (List (Nat × Script))) :
    ∀ (l : List (K × List (Nat × Script))) (u : Update T) (la : OMap K Nat) (t : Nat), (∀ e ∈ l, ks.get e.1 = some e.2) →
    Good s cps tip h0 lo t u → ActiveOk s lo t ks la →
    keychainLoop s o h0 stopGap par fuel l u la t ≠ .panic ∧
    ∀ u' la' t', keychainLoop s o h0 stopGap par fuel l u la t = .ok ((u', la'), t') → Good s cps tip h0 lo t' u' ∧ ActiveOk s lo t' ks la' ∧
      t ≤ t'
  | [], u, la, t, _, hg, hA => ⟨by simp [keychainLoop], fun u' la' t' h => by cases h; exact ⟨hg, hA, le_refl _⟩⟩
  | (k, spks) :: l, u, la, t, hl, hg, hA => by
    simp only [keychainLoop]
    obtain ⟨h1, h2⟩ := batchLoop_keeps (s := s) (cps := cps) (lo := lo) ht o stopGap par fuel spks (spks.length + 1) spks ⟨u, none, 0⟩ t
      (fun e he => he) hg (fun i hi => by cases hi)
    have htime := batchLoop_time s o h0 stopGap par fuel (spks.length + 1) spks ⟨u, none, 0⟩ t
    cases hb : batchLoop s o h0 stopGap par fuel (spks.length + 1) spks ⟨u, none, 0⟩ t with
    | panic => exact absurd hb h1
    | error => simp
    | pending => simp
    | ok r =>
      obtain ⟨st, t1⟩ := r
      obtain ⟨h3, h4⟩ := h2 st t1 hb
      have ht1 := htime st t1 hb
      simp only
      obtain ⟨h5, h6⟩ := keychainLoop_keeps ht o stopGap par fuel ks l st.update
        (match st.lastActive with | some i => la.insert k i | none => la) t1 (fun e he => hl e (List.mem_cons_of_mem _ he)) h3 (by
          intro k' i hi
          cases hla : st.lastActive with
          | none => rw [hla] at hi; exact (hA.mono ht1) k' i hi
          | some j =>
            rw [hla] at hi
            simp only at hi
            rw [OMap.get_insert] at hi
            by_cases e : k' = k
            · rw [if_pos e] at hi
              cases hi
              obtain ⟨spk, a, b⟩ := h4 i hla
              exact ⟨spks, spk, by rw [e]; exact hl _ List.mem_cons_self, a, b⟩
            · rw [if_neg e] at hi
              exact (hA.mono ht1) k' i hi)
      exact ⟨h5, fun u' la' t' h => ⟨(h6 u' la' t' h).1, (h6 u' la' t' h).2.1, le_trans ht1 (h6 u' la' t' h).2.2⟩⟩

end
end Verif.Esplora
