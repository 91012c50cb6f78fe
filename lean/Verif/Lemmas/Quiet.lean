import Verif.Lemmas.SpkIndex
import Verif.Model.Tracker

/-!
# What the calls of the keychain index that scan nothing leave alone
-/

namespace Verif.KeychainIndex
variable {K D : Type} [LinearOrder K] [DescriptorOps D]

theorem storeSpks_txouts (k : K) (n : Nat) : ∀ (l : List (Nat × Script)) (x x' : SpkIndex (K ×ₗ Nat)),
    storeSpks x k n l = some x' → x'.txouts = x.txouts ∧ x'.spkTxouts = x.spkTxouts
  | [], x, x', h => by cases h; exact ⟨rfl, rfl⟩
  | (i, spk) :: l, x, x', h => by
    unfold storeSpks at h
    split at h
    · simp only [] at h
      split at h
      · obtain ⟨h1, h2⟩ := storeSpks_txouts k n l _ _ h
        obtain ⟨h3, h4⟩ := SpkIndex.insertSpk_txouts x (toLex (k, i)) spk
        exact ⟨h1.trans h3, h2.trans h4⟩
      · cases h
    · exact storeSpks_txouts k n l _ _ h

/-- the recorded outputs are the same -/
def SameRecord (s s' : KeychainIndex K D) : Prop := s'.inner.txouts = s.inner.txouts ∧ s'.inner.spkTxouts = s.inner.spkTxouts

theorem SameRecord.refl (s : KeychainIndex K D) : SameRecord s s := ⟨rfl, rfl⟩
theorem SameRecord.trans {a b c : KeychainIndex K D} (h : SameRecord a b) (h' : SameRecord b c) : SameRecord a c :=
  ⟨h'.1.trans h.1, h'.2.trans h.2⟩

theorem replenish_record {s s' : KeychainIndex K D} {k : K} (h : s.replenishLookahead k = some s') : SameRecord s s' := by
  unfold replenishLookahead at h
  simp only [Option.bind_eq_bind, Option.bind_eq_some_iff, Option.pure_def, Option.some.injEq] at h
  obtain ⟨d, -, n, -, e, -, x, hx, rfl⟩ := h
  exact storeSpks_txouts _ _ _ _ _ hx

theorem setLookahead_record {s s' : KeychainIndex K D} {k : K} {n : Nat} (h : s.setLookahead k n = some s') : SameRecord s s' := by
  have := replenish_record h
  exact this

theorem foldlM_record {A : Type} (f : KeychainIndex K D → A → Option (KeychainIndex K D))
    (hf : ∀ s a s', f s a = some s' → SameRecord s s') : ∀ (l : List A) (s s' : KeychainIndex K D),
    l.foldlM f s = some s' → SameRecord s s'
  | [], s, s', h => by cases h; exact SameRecord.refl s
  | a :: l, s, s', h => by
    rw [List.foldlM_cons] at h
    obtain ⟨s1, h1, h2⟩ := Option.bind_eq_some_iff.1 h
    exact (hf _ _ _ h1).trans (foldlM_record f hf l _ _ h2)

theorem lookaheadToTarget_record {s s' : KeychainIndex K D} {k : K} {n : Nat} (h : s.lookaheadToTarget k n = some s') :
    SameRecord s s' := by
  unfold lookaheadToTarget at h
  simp only [] at h
  split at h
  · obtain ⟨s1, h1, h2⟩ := Option.bind_eq_some_iff.1 h
    cases h2
    have := setLookahead_record h1
    exact ⟨this.1, this.2⟩
  · cases h; exact SameRecord.refl s

theorem reveal_record {s : KeychainIndex K D} {k : K} {n : Nat} {r} (h : s.revealToTarget k n = some r) : SameRecord s r.1 := by
  unfold revealToTarget at h
  simp only [Option.bind_eq_bind, Option.bind_eq_some_iff, Option.pure_def] at h
  obtain ⟨d, -, n, -, e, -, e', -, x, hx, h⟩ := h
  generalize revealedIndex _ _ _ _ = ri at h
  cases ri with
  | none => cases h; exact storeSpks_txouts _ _ _ _ _ hx
  | some index =>
    simp only [] at h
    revert h
    have hc : ∀ (c : Bool), (if c = true then none else (addU32 index 1).bind fun e => some
        (({ s with inner := x, lastRevealed := s.lastRevealed.insert k index } : KeychainIndex K D),
          rangeDescriptorSpks d (rangeEx n e), (OMap.empty.insert k index : DerivationAdditions K))) = some r → SameRecord s r.1 := by
      intro c h
      cases c with
      | true => cases h
      | false =>
        obtain ⟨e2, -, h2⟩ := Option.bind_eq_some_iff.1 h
        cases h2
        exact storeSpks_txouts _ _ _ _ _ hx
    exact hc _

theorem revealMulti_record {s : KeychainIndex K D} {m : OMap K Nat} {r} (h : s.revealToTargetMulti m = some r) : SameRecord s r.1 := by
  unfold revealToTargetMulti at h
  revert h
  generalize m.entries = l
  have : ∀ (l : List (K × Nat)) (a r : KeychainIndex K D × OMap K (List (Nat × Script)) × DerivationAdditions K),
      l.foldlM (fun acc e => do
        let r ← acc.1.revealToTarget e.1 e.2
        return (r.1, if r.2.2.isEmpty then acc.2 else (acc.2.1.insert e.1 r.2.1, DerivationAdditions.append acc.2.2 r.2.2))) a = some r →
      SameRecord a.1 r.1 := by
    intro l
    induction l with
    | nil => intro a r h; cases h; exact SameRecord.refl _
    | cons e l ih =>
      intro a r h
      rw [List.foldlM_cons] at h
      obtain ⟨s1, h1, h2⟩ := Option.bind_eq_some_iff.1 h
      obtain ⟨r1, h3, h4⟩ := Option.bind_eq_some_iff.1 h1
      cases h4
      exact (reveal_record h3).trans (ih _ _ h2)
  exact this l _ _

theorem revealNext_record {s : KeychainIndex K D} {k : K} {r} (h : s.revealNextSpk k = some r) : SameRecord s r.1 := by
  unfold revealNextSpk at h
  simp only [Option.bind_eq_bind, Option.bind_eq_some_iff, Option.pure_def, Option.some.injEq] at h
  obtain ⟨n, -, r1, h1, spk, -, rfl⟩ := h
  exact reveal_record h1

theorem markUsed_record (s : KeychainIndex K D) (k : K) (i : Nat) : SameRecord s (s.markUsed k i).1 := ⟨rfl, rfl⟩

theorem unmarkUsed_record (s : KeychainIndex K D) (k : K) (i : Nat) : SameRecord s (s.unmarkUsed k i).1 :=
  ⟨(SpkIndex.unmarkUsed_fields s.inner (toLex (k, i))).1, (SpkIndex.unmarkUsed_fields s.inner (toLex (k, i))).2.1⟩

theorem nextUnused_record {s : KeychainIndex K D} {k : K} {r} (h : s.nextUnusedSpk k = some r) : SameRecord s r.1 := by
  unfold nextUnusedSpk at h
  obtain ⟨l, -, h⟩ := Option.bind_eq_some_iff.1 h
  cases l with
  | nil => exact revealNext_record h
  | cons e l =>
    obtain ⟨i, spk⟩ := e
    obtain ⟨x, -, h2⟩ := Option.bind_eq_some_iff.1 h
    cases h2
    exact SameRecord.refl s

theorem revealReserve_record {s : KeychainIndex K D} {k : K} {r} (h : s.revealAndReserveNextSpk k = some r) : SameRecord s r.1 := by
  unfold revealAndReserveNextSpk at h
  simp only [Option.bind_eq_bind, Option.bind_eq_some_iff, Option.pure_def, Option.some.injEq] at h
  obtain ⟨r1, h1, spk, -, rfl⟩ := h
  exact (revealNext_record h1).trans (markUsed_record _ _ _)

theorem reserveUnused_record {s : KeychainIndex K D} {k : K} {r} (h : s.reserveNextUnusedSpk k = some r) : SameRecord s r.1 := by
  unfold reserveNextUnusedSpk at h
  simp only [Option.bind_eq_bind, Option.bind_eq_some_iff, Option.pure_def, Option.some.injEq] at h
  obtain ⟨r1, h1, spk, -, rfl⟩ := h
  exact (nextUnused_record h1).trans (markUsed_record _ _ _)

/-- a call that scans nothing -/
def Op.scansNothing : Op K D → Bool
  | .scanTxout _ _ => false
  | .scan _ => false
  | _ => true

theorem step_record [DecidableEq D] {s : KeychainIndex K D} {op : Op K D} (hop : op.scansNothing = true) {r}
    (h : s.step op = some r) : SameRecord s r.1 := by
  cases op with
  | addKeychain k d =>
    obtain ⟨s', h1, rfl⟩ := Option.map_eq_some_iff.1 h
    unfold addKeychain at h1
    split at h1
    · cases h1; exact ⟨rfl, rfl⟩
    · split at h1
      · cases h1; exact ⟨rfl, rfl⟩
      · cases h1
  | setLookahead k n => obtain ⟨s', h1, rfl⟩ := Option.map_eq_some_iff.1 h; exact setLookahead_record h1
  | setLookaheadForAll n =>
    obtain ⟨s', h1, rfl⟩ := Option.map_eq_some_iff.1 h
    exact foldlM_record _ (fun _ _ _ h => setLookahead_record h) _ _ _ h1
  | lookaheadToTarget k n => obtain ⟨s', h1, rfl⟩ := Option.map_eq_some_iff.1 h; exact lookaheadToTarget_record h1
  | lookaheadToTargetMulti m =>
    obtain ⟨s', h1, rfl⟩ := Option.map_eq_some_iff.1 h
    exact foldlM_record _ (fun _ _ _ h => lookaheadToTarget_record h) _ _ _ h1
  | revealToTarget k n => obtain ⟨s', h1, rfl⟩ := Option.map_eq_some_iff.1 h; exact reveal_record h1
  | revealToTargetMulti m => obtain ⟨s', h1, rfl⟩ := Option.map_eq_some_iff.1 h; exact revealMulti_record h1
  | revealNextSpk k => obtain ⟨s', h1, rfl⟩ := Option.map_eq_some_iff.1 h; exact revealNext_record h1
  | revealAndReserveNextSpk k => obtain ⟨s', h1, rfl⟩ := Option.map_eq_some_iff.1 h; exact revealReserve_record h1
  | nextUnusedSpk k => obtain ⟨s', h1, rfl⟩ := Option.map_eq_some_iff.1 h; exact nextUnused_record h1
  | reserveNextUnusedSpk k => obtain ⟨s', h1, rfl⟩ := Option.map_eq_some_iff.1 h; exact reserveUnused_record h1
  | markUsed k i => cases h; exact markUsed_record _ _ _
  | unmarkUsed k i => cases h; exact unmarkUsed_record _ _ _
  | scanTxout o x => cases hop
  | scan l => cases hop
  | applyAdditions a => obtain ⟨s', h1, rfl⟩ := Option.map_eq_some_iff.1 h; exact revealMulti_record h1

end Verif.KeychainIndex
