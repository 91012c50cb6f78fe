import Verif.Lemmas.Esplora2

/-! # Lemmas about the esplora scan with an arbitrary server: whole scans -/

namespace Verif.Esplora
open Verif Spec Verif.Props
variable {T : Type} [LinearOrder T] [AsTransaction T] [LawfulTx T]

omit [LinearOrder T] [AsTransaction T] [LawfulTx T] in
theorem lookup_cases (s : Server T) (t : Nat) (x : Txid) :
    lookup s t x = .error ∨ lookup s t x = .ok none ∨
      ∃ tx st, lookup s t x = .ok (some (tx, st)) ∧ s.tx t x = some (some tx) ∧ s.status (t + 1) x = some (some st) := by
  unfold lookup
  rcases h1 : s.tx t x with _ | _ | tx
  · exact .inl rfl
  · rcases h2 : s.status (t + 1) x with _ | _ | st
    · exact .inl rfl
    · exact .inr (.inl rfl)
    · exact .inr (.inl rfl)
  · rcases h2 : s.status (t + 1) x with _ | _ | st
    · exact .inl rfl
    · exact .inr (.inl rfl)
    · exact .inr (.inr ⟨tx, st, rfl, rfl, rfl⟩)

section
variable {s : Server T} {cps : Nat → Option BlockId} {tip h0 lo : Nat}

theorem putAll_good (ht : h0 ≤ tip) (o : Orders ConfirmationTime T) {t t' : Nat} {u : Update T} (hg : Good s cps tip h0 lo t u)
    (htt : t ≤ t') (l : List (T × Status)) (hl : ∀ e ∈ l, ∃ t1, t ≤ t1 ∧ t1 < t' ∧ Gives s t1 e.1 e.2) :
    ∃ u', putAll o h0 l u = .ok u' ∧ Good s cps tip h0 lo t' u' := by
  have hg' := hg.mono htt
  obtain ⟨u', h1, h2, h3⟩ := putAll_keeps (R := Rep s h0 lo t') ht o l hg'.2.1 hg'.2.2 (by
    intro e he
    obtain ⟨t1, a, b, c⟩ := hl e he
    exact ⟨t1, e.1, e.2, le_trans hg.1 a, b, c, rfl, rfl⟩)
  exact ⟨u', h1, hg'.1, h2, h3⟩

theorem txidLoop_keeps (ht : h0 ≤ tip) (o : Orders ConfirmationTime T) : ∀ (l : List Txid) (u : Update T) (t : Nat),
    Good s cps tip h0 lo t u → txidLoop s o h0 l u t ≠ .panic ∧
    ∀ u' t', txidLoop s o h0 l u t = .ok (u', t') → t ≤ t' ∧ Good s cps tip h0 lo t' u'
  | [], u, t, hg => ⟨by simp [txidLoop], fun u' t' h => by cases h; exact ⟨le_refl _, hg⟩⟩
  | x :: l, u, t, hg => by
    simp only [txidLoop]
    rcases lookup_cases s t x with h | h | ⟨tx, st, h, h1, h2⟩
    · rw [h]; simp
    · rw [h]
      obtain ⟨h3, h4⟩ := txidLoop_keeps ht o l u (t + 2) (hg.mono (by omega))
      exact ⟨h3, fun u' t' h => ⟨by have := (h4 u' t' h).1; omega, (h4 u' t' h).2⟩⟩
    · rw [h]
      obtain ⟨u1, h3, h4⟩ := putAll_good ht o hg (t' := t + 2) (by omega) [(tx, st)] (by
        intro e he
        rw [List.mem_singleton] at he
        subst he
        exact ⟨t, le_refl _, by omega, .inr (.inl ⟨x, h1, h2⟩)⟩)
      simp only [h3]
      obtain ⟨h5, h6⟩ := txidLoop_keeps ht o l u1 (t + 2) h4
      exact ⟨h5, fun u' t' h => ⟨by have := (h6 u' t' h).1; omega, (h6 u' t' h).2⟩⟩

omit [LinearOrder T] [AsTransaction T] [LawfulTx T] in
theorem outpointTxs_cases (s : Server T) (t : Nat) (op : OutPoint) :
    outpointTxs s t op = .error ∨ ∃ l t', outpointTxs s t op = .ok (l, t') ∧ t ≤ t' ∧
      ∀ e ∈ l, ∃ t1, t ≤ t1 ∧ t1 < t' ∧ Gives s t1 e.1 e.2 := by
  unfold outpointTxs
  rcases lookup_cases s t op.txid with h | h | ⟨tx, st, h, h1, h2⟩
  · rw [h]; exact .inl rfl
  · rw [h]; exact .inr ⟨[], t + 2, rfl, by omega, by simp⟩
  · rw [h]
    have hfirst : Gives s t tx st := .inr (.inl ⟨op.txid, h1, h2⟩)
    have hone : ∀ t', t < t' → ∀ e ∈ [(tx, st)], ∃ t1, t ≤ t1 ∧ t1 < t' ∧ Gives s t1 e.1 e.2 := by
      intro t' ht e he
      rw [List.mem_singleton] at he
      subst he
      exact ⟨t, le_refl _, ht, hfirst⟩
    simp only
    rcases ho : s.outputStatus (t + 2) op.txid op.vout.val with _ | _ | ⟨_ | y, _ | st'⟩
    · exact .inl rfl
    · exact .inr ⟨_, _, rfl, by omega, hone _ (by omega)⟩
    · exact .inr ⟨_, _, rfl, by omega, hone _ (by omega)⟩
    · exact .inr ⟨_, _, rfl, by omega, hone _ (by omega)⟩
    · exact .inr ⟨_, _, rfl, by omega, hone _ (by omega)⟩
    · simp only
      rcases hx : s.tx (t + 3) y with _ | _ | tx'
      · exact .inl rfl
      · exact .inr ⟨_, _, rfl, by omega, hone _ (by omega)⟩
      · refine .inr ⟨_, _, rfl, by omega, ?_⟩
        intro e he
        simp only [List.mem_cons, List.not_mem_nil, or_false] at he
        rcases he with rfl | rfl
        · exact ⟨t, le_refl _, by omega, hfirst⟩
        · exact ⟨t + 2, by omega, by omega, .inr (.inr ⟨_, _, y, ho, hx⟩)⟩

theorem outpointLoop_keeps (ht : h0 ≤ tip) (o : Orders ConfirmationTime T) : ∀ (l : List OutPoint) (u : Update T) (t : Nat),
    Good s cps tip h0 lo t u → outpointLoop s o h0 l u t ≠ .panic ∧
    ∀ u' t', outpointLoop s o h0 l u t = .ok (u', t') → t ≤ t' ∧ Good s cps tip h0 lo t' u'
  | [], u, t, hg => ⟨by simp [outpointLoop], fun u' t' h => by cases h; exact ⟨le_refl _, hg⟩⟩
  | op :: l, u, t, hg => by
    simp only [outpointLoop]
    rcases outpointTxs_cases s t op with h | ⟨txs, t1, h, h1, h2⟩
    · rw [h]; simp
    · rw [h]
      obtain ⟨u1, h3, h4⟩ := putAll_good ht o hg h1 txs h2
      simp only [h3]
      obtain ⟨h5, h6⟩ := outpointLoop_keeps ht o l u1 t1 h4
      exact ⟨h5, fun u' t' h => ⟨le_trans h1 (h6 u' t' h).1, (h6 u' t' h).2⟩⟩

variable {K : Type} [LinearOrder K]

theorem collect_keeps (ht : h0 ≤ tip) (o : Orders ConfirmationTime T) (ks : OMap K (List (Nat × Script))) (txids : List Txid)
    (ops : List OutPoint) (stopGap par fuel : Nat) (u : Update T) (t : Nat) (hg : Good s cps tip h0 lo t u) :
    collect s o ks txids ops h0 stopGap par fuel u t ≠ .panic ∧
    (∀ t', collect s o ks txids ops h0 stopGap par fuel u t ≠ .ok (.restart t')) ∧
    ∀ sc r t', collect s o ks txids ops h0 stopGap par fuel u t = .ok (.done sc r t') →
      ∃ t2 b, t ≤ t2 ∧ t' = t2 + 1 ∧ Good s cps tip h0 lo t2 sc.update ∧ ActiveOk s lo t2 ks sc.lastActiveIndices ∧
        sc.update.chain.latestCheckpoint = some b ∧ b.height = tip ∧ cps tip = some b ∧
        ∃ h, s.blockHash t2 b.height = some h ∧ (r = true ↔ h ≠ b.hash) := by
  unfold collect
  obtain ⟨h1, h2⟩ := keychainLoop_keeps (s := s) (cps := cps) (lo := lo) ht o stopGap par fuel ks ks.entries u OMap.empty t
    (fun e he => OMap.mem_entries.1 he) hg (fun k i h => by simp at h)
  rcases hk : keychainLoop s o h0 stopGap par fuel ks.entries u OMap.empty t with ⟨⟨u1, la⟩, t1⟩ | _ | _ | _
  · obtain ⟨h3, h4, h5⟩ := h2 u1 la t1 hk
    simp only
    obtain ⟨h6, h7⟩ := txidLoop_keeps ht o txids u1 t1 h3
    rcases hx : txidLoop s o h0 txids u1 t1 with ⟨u2, t2⟩ | _ | _ | _
    · obtain ⟨h8, h9⟩ := h7 u2 t2 hx
      simp only
      obtain ⟨h10, h11⟩ := outpointLoop_keeps ht o ops u2 t2 h9
      rcases hop : outpointLoop s o h0 ops u2 t2 with ⟨u3, t3⟩ | _ | _ | _
      · obtain ⟨h12, h13⟩ := h11 u3 t3 hop
        simp only
        obtain ⟨b, hb, hb1, hb2⟩ := h13.2.1.upd.latest
        unfold reorgOccurred
        rw [hb]
        simp only
        cases hbh : s.blockHash t3 b.height with
        | none => simp
        | some h =>
          simp only
          refine ⟨by simp, by simp, ?_⟩
          intro sc r t' he
          simp only [Out.ok.injEq, Pass.done.injEq] at he
          obtain ⟨rfl, rfl, rfl⟩ := he
          exact ⟨t3, b, by omega, rfl, h13, h4.mono (by omega), hb, hb1, hb2, h, hbh, by simp⟩
      · simp
      · exact absurd hop h10
      · simp
    · simp
    · exact absurd hx h6
    · simp
  · simp
  · exact absurd hk h1
  · simp

end
end Verif.Esplora
