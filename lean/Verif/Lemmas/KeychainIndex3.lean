import Verif.Lemmas.KeychainIndex2

namespace Verif
open Verif Verif.Spec

/-! ## additions -/

/-- maximum of optional numbers -/
def optMax : Option Nat → Option Nat → Option Nat
  | none, y => y
  | some a, none => some a
  | some a, some b => some (max a b)

theorem optMax_none_right (a : Option Nat) : optMax a none = a := by cases a <;> rfl
theorem optMax_comm (a b : Option Nat) : optMax a b = optMax b a := by
  cases a <;> cases b <;> simp [optMax, Nat.max_comm]
theorem optMax_assoc (a b c : Option Nat) : optMax (optMax a b) c = optMax a (optMax b c) := by
  cases a <;> cases b <;> cases c <;> simp [optMax, Nat.max_assoc]
theorem optMax_self (a : Option Nat) : optMax a a = a := by cases a <;> simp [optMax]

namespace DerivationAdditions
variable {K : Type} [LinearOrder K]

theorem get_append (a b : DerivationAdditions K) (k : K) :
    (append a b).get k = optMax (a.get k) (b.get k) := by
  unfold append
  rw [OMap.get_append, OMap.get_mapVal, OMap.get_filter]
  cases ha : a.get k with
  | none =>
    have hc : a.contains k = false := OMap.contains_eq_false.2 ha
    cases hb : b.get k <;> simp [optMax, hc, Option.filter]
  | some i =>
    have hc : a.contains k = true := OMap.contains_iff.2 ⟨i, ha⟩
    cases hb : b.get k <;> simp [optMax, hc, Option.filter, Nat.max_comm]

theorem append_empty (a : DerivationAdditions K) : append a OMap.empty = a :=
  OMap.ext_get fun k => by rw [get_append, OMap.get_empty, optMax_none_right]
theorem empty_append (a : DerivationAdditions K) : append OMap.empty a = a :=
  OMap.ext_get fun k => by rw [get_append, OMap.get_empty]; rfl
theorem append_assoc (a b c : DerivationAdditions K) : append (append a b) c = append a (append b c) :=
  OMap.ext_get fun k => by simp only [get_append, optMax_assoc]
theorem append_comm (a b : DerivationAdditions K) : append a b = append b a :=
  OMap.ext_get fun k => by simp only [get_append, optMax_comm]
theorem append_self (a : DerivationAdditions K) : append a a = a :=
  OMap.ext_get fun k => by simp only [get_append, optMax_self]

theorem append_single (m : DerivationAdditions K) (k : K) (i : Nat) (h : ∀ old, m.get k = some old → old < i) :
    append m (OMap.empty.insert k i) = m.insert k i := by
  apply OMap.ext_get; intro k'
  rw [get_append, OMap.get_insert, OMap.get_insert]
  by_cases hk : k' = k
  · subst hk
    rw [if_pos rfl, if_pos rfl]
    cases hm : m.get k' with
    | none => rfl
    | some old =>
      have := h old hm
      show some (max old i) = some i
      congr 1; omega
  · rw [if_neg hk, if_neg hk, OMap.get_empty, optMax_none_right]
end DerivationAdditions

namespace KeychainIndex
open SpkIndex
variable {K D : Type} [LinearOrder K] [DescriptorOps D]

/-- a transition that keeps the keychains, raises the revealed indices by `a` and keeps the invariant -/
structure Upd (s s' : KeychainIndex K D) (a : DerivationAdditions K) : Prop where
  kc : s'.keychains = s.keychains
  lr : s'.lastRevealed = DerivationAdditions.append s.lastRevealed a
  inv : AllDerivable s → Inv s → Inv s'

theorem Upd.refl (s : KeychainIndex K D) : Upd s s OMap.empty :=
  ⟨rfl, (DerivationAdditions.append_empty _).symm, fun _ h => h⟩

theorem AllDerivable_congr {s s' : KeychainIndex K D} (h : s'.keychains = s.keychains) (hd : AllDerivable s) : AllDerivable s' := by
  intro k d hk; rw [h] at hk; exact hd k d hk

theorem Upd.trans {s s' s'' : KeychainIndex K D} {a b : DerivationAdditions K} (h1 : Upd s s' a) (h2 : Upd s' s'' b) :
    Upd s s'' (DerivationAdditions.append a b) :=
  ⟨h2.kc.trans h1.kc, by rw [h2.lr, h1.lr, DerivationAdditions.append_assoc],
   fun hd hi => h2.inv (AllDerivable_congr h1.kc hd) (h1.inv hd hi)⟩

theorem Upd.trans_empty {s s' s'' : KeychainIndex K D} {a : DerivationAdditions K} (h1 : Upd s s' a) (h2 : Upd s' s'' OMap.empty) :
    Upd s s'' a := by
  have := h1.trans h2; rwa [DerivationAdditions.append_empty] at this

theorem Upd.empty_trans {s s' s'' : KeychainIndex K D} {a : DerivationAdditions K} (h1 : Upd s s' OMap.empty) (h2 : Upd s' s'' a) :
    Upd s s'' a := by
  have := h1.trans h2; rwa [DerivationAdditions.empty_append] at this

/-- changes of the inner index that keep the stored scripts -/
theorem inv_inner {s : KeychainIndex K D} {x : SpkIndex (K ×ₗ Nat)} (hi : Inv s) (hx : HistInv x) (hs : x.spks = s.inner.spks) :
    Inv { s with inner := x } := by
  refine ⟨hx, ?_, ?_, fun k d i h1 h2 h3 => hi.nw k d i h1 h2 h3⟩
  · intro k hk
    refine ⟨fun i => ?_, (hi.absent k hk).2⟩
    show x.spks.get _ = none
    rw [hs]; exact (hi.absent k hk).1 i
  · intro k d hk
    obtain ⟨n, h1, h2, h3⟩ := hi.contig k d hk
    refine ⟨n, fun i => ?_, h2, h3⟩
    show x.spks.get _ = _
    rw [hs]; exact h1 i

theorem scanTxout_spks {I : Type} [LinearOrder I] (x : SpkIndex I) (o : OutPoint) (t : TxOut) :
    (x.scanTxout o t).1.spks = x.spks ∧ (x.scanTxout o t).1.spkIndices = x.spkIndices := by
  unfold SpkIndex.scanTxout; split <;> exact ⟨rfl, rfl⟩

theorem markUsed_upd (s : KeychainIndex K D) (k : K) (i : Nat) : Upd s (s.markUsed k i).1 OMap.empty :=
  ⟨rfl, (DerivationAdditions.append_empty _).symm, fun _ hi =>
    inv_inner hi (hi.hist.step_other (.markUsed (toLex (k, i))) (by simp)) rfl⟩

theorem unmarkUsed_upd (s : KeychainIndex K D) (k : K) (i : Nat) : Upd s (s.unmarkUsed k i).1 OMap.empty :=
  ⟨rfl, (DerivationAdditions.append_empty _).symm, fun _ hi =>
    inv_inner hi (hi.hist.step_other (.unmarkUsed (toLex (k, i))) (by simp)) (unmarkUsed_fields _ _).2.2.1⟩

theorem innerScan_upd (s : KeychainIndex K D) (o : OutPoint) (t : TxOut) :
    Upd s { s with inner := (s.inner.scanTxout o t).1 } OMap.empty :=
  ⟨rfl, (DerivationAdditions.append_empty _).symm, fun _ hi =>
    inv_inner hi (hi.hist.step_other (.scanTxout o t) (by simp)) (scanTxout_spks _ _ _).1⟩

theorem reveal_upd {s : KeychainIndex K D} {k : K} {t : Nat} {r} (h : s.revealToTarget k t = some r) : Upd s r.1 r.2.2 := by
  refine ⟨?_, ?_, fun hd hi => by obtain ⟨_, _, _, _, _, _, _, h1, _⟩ := reveal_main h hi hd; exact h1⟩
  · obtain ⟨d, x', -, -, -, -, ⟨i, -, -, -, rfl⟩ | ⟨-, rfl⟩⟩ := reveal_spec h <;> rfl
  · obtain ⟨d, x', -, -, -, -, ⟨i, -, -, hold, rfl⟩ | ⟨-, rfl⟩⟩ := reveal_spec h
    · exact (DerivationAdditions.append_single _ _ _ hold).symm
    · exact (DerivationAdditions.append_empty _).symm

theorem setLookahead_upd {s s' : KeychainIndex K D} {k : K} {n : Nat} (h : s.setLookahead k n = some s') : Upd s s' OMap.empty := by
  refine ⟨?_, ?_, fun hd hi => by obtain ⟨_, _, _, _, h1, _⟩ := setLookahead_inv h hi hd; exact h1⟩
  · obtain ⟨d, x', -, -, -, rfl⟩ := replenish_spec h; rfl
  · obtain ⟨d, x', -, -, -, rfl⟩ := replenish_spec h; exact (DerivationAdditions.append_empty _).symm

theorem foldlM_upd {α : Type} (f : KeychainIndex K D → α → Option (KeychainIndex K D))
    (hf : ∀ s a s', f s a = some s' → Upd s s' OMap.empty) (l : List α) (s s' : KeychainIndex K D)
    (h : l.foldlM f s = some s') : Upd s s' OMap.empty := by
  induction l generalizing s with
  | nil => have := Option.some.inj h; subst this; exact Upd.refl _
  | cons a l ih =>
    rw [List.foldlM_cons] at h
    cases hfa : f s a with
    | none => rw [hfa] at h; cases h
    | some s1 =>
      rw [hfa] at h
      exact (hf s a s1 hfa).trans_empty (ih s1 h)

/-- what `lookahead_to_target` does when it stores something -/
theorem lookaheadToTarget_some {s s' : KeychainIndex K D} {k : K} {t : Nat} (h : s.lookaheadToTarget k t = some s') :
    (t ≤ s.nextStoreIndex k ∧ s' = s) ∨
    (s.nextStoreIndex k < t ∧ ∃ s1, s.setLookahead k (t - s.nextStoreIndex k) = some s1 ∧
      s' = { s1 with lookahead := match s.lookahead.get k with
        | some v => s1.lookahead.insert k v
        | none => s1.lookahead.erase k }) := by
  unfold lookaheadToTarget at h
  simp only [] at h
  by_cases hlt : s.nextStoreIndex k < t
  · rw [if_pos hlt] at h
    right
    refine ⟨hlt, ?_⟩
    change (s.setLookahead k (t - s.nextStoreIndex k)).bind _ = _ at h
    cases hs : s.setLookahead k (t - s.nextStoreIndex k) with
    | none => rw [hs] at h; cases h
    | some s1 =>
      rw [hs] at h
      exact ⟨s1, rfl, (Option.some.inj h).symm⟩
  · rw [if_neg hlt] at h
    exact Or.inl ⟨by omega, (Option.some.inj h).symm⟩

theorem restored_lookahead (s : KeychainIndex K D) (la : OMap K Nat) (k : K) (n : Nat) (h : la = s.lookahead.insert k n) :
    (match s.lookahead.get k with | some v => la.insert k v | none => la.erase k) = s.lookahead := by
  subst h
  apply OMap.ext_get; intro k'
  cases hg : s.lookahead.get k with
  | some v =>
    simp only [OMap.get_insert]
    by_cases hk : k' = k
    · rw [if_pos hk, hk, hg]
    · rw [if_neg hk, if_neg hk]
  | none =>
    simp only [OMap.get_erase, OMap.get_insert]
    by_cases hk : k' = k
    · rw [if_pos hk, hk, hg]
    · rw [if_neg hk, if_neg hk]

theorem lookaheadToTarget_inv {s s' : KeychainIndex K D} {k : K} {t : Nat} (h : s.lookaheadToTarget k t = some s') (hi : Inv s)
    (hd : AllDerivable s) : Inv s' ∧ s'.lookahead = s.lookahead ∧ s'.keychains = s.keychains ∧ s'.lastRevealed = s.lastRevealed ∧
      ∀ d n, s.keychains.get k = some d → Contig s k d n → s.nextStoreIndex k = n →
        Contig s' k d (if n < t then max n (min (numRevealed s k + (t - n)) (cap d + 1)) else n) := by
  rcases lookaheadToTarget_some h with ⟨hle, rfl⟩ | ⟨hlt, s1, hs1, rfl⟩
  · refine ⟨hi, rfl, rfl, rfl, fun d n _ hc hn => ?_⟩
    rw [if_neg (by omega)]; exact hc
  · obtain ⟨d, n, hk, hc, hi1, hkc, hlr, hla, hc1, -⟩ := setLookahead_inv hs1 hi hd
    have hla' := restored_lookahead s s1.lookahead k _ hla
    have hnum : ∀ k', numRevealed s1 k' = numRevealed s k' := by
      intro k'; unfold numRevealed lastRevealedIndex; rw [hlr]
    have hn := nextStoreIndex_eq hc (hd k d hk)
    have key : Contig { s1 with lookahead := match s.lookahead.get k with
        | some v => s1.lookahead.insert k v
        | none => s1.lookahead.erase k } k d (max n (min (numRevealed s k + (t - s.nextStoreIndex k)) (cap d + 1))) := by
      refine ⟨hc1.1, hc1.2.1, ?_⟩
      rw [hla']
      show min (numRevealed s1 k + s.lookaheadOf k) (cap d + 1) ≤ _
      rw [hnum]
      have := hc.2.2
      omega
    refine ⟨⟨hi1.hist, ?_, ?_, fun k d i h1 h2 h3 => hi1.nw k d i h1 h2 h3⟩, hla', hkc, hlr, ?_⟩
    · intro k' hk'
      have hk'' : s.keychains.get k' = none := by rw [← hkc]; exact hk'
      refine ⟨(hi1.absent k' hk').1, (hi1.absent k' hk').2.1, ?_⟩
      simp only []
      rw [hla']; exact (hi.absent k' hk'').2.2
    · intro k' d' hk'
      by_cases hkk : k' = k
      · subst hkk
        have : d = d' := by
          have hk2 : s1.keychains.get k' = some d' := hk'
          rw [hkc, hk] at hk2; exact Option.some.inj hk2
        subst this
        exact ⟨_, key⟩
      · obtain ⟨m, hm1, hm2, hm3⟩ := hi1.contig k' d' hk'
        refine ⟨m, hm1, hm2, ?_⟩
        have e1 : s1.lookaheadOf k' = s.lookaheadOf k' := by
          unfold lookaheadOf; rw [hla, OMap.get_insert, if_neg hkk]
        rw [hla']
        show min (numRevealed s1 k' + s.lookaheadOf k') (cap d' + 1) ≤ _
        rw [← e1]; exact hm3
    · intro d' n' hk' hc' hn'
      have : d = d' := by rw [hk] at hk'; exact Option.some.inj hk'
      subst this
      have : n = n' := by rw [← hn, hn']
      subst this
      rw [if_pos (by omega)]
      rw [hn] at key; exact key

theorem lookaheadToTarget_upd {s s' : KeychainIndex K D} {k : K} {t : Nat} (h : s.lookaheadToTarget k t = some s') :
    Upd s s' OMap.empty := by
  refine ⟨?_, ?_, fun hd hi => (lookaheadToTarget_inv h hi hd).1⟩
  · rcases lookaheadToTarget_some h with ⟨hle, rfl⟩ | ⟨hlt, s1, hs1, rfl⟩
    · rfl
    · exact (setLookahead_upd hs1).kc
  · rcases lookaheadToTarget_some h with ⟨hle, rfl⟩ | ⟨hlt, s1, hs1, rfl⟩
    · exact (DerivationAdditions.append_empty _).symm
    · exact (setLookahead_upd hs1).lr

theorem scanTxout_upd {s : KeychainIndex K D} {o : OutPoint} {x : TxOut} {r} (h : s.scanTxout o x = some r) : Upd s r.1 r.2 := by
  unfold scanTxout at h
  simp only [] at h
  have hu := innerScan_upd s o x
  cases hr : (s.inner.scanTxout o x).2 with
  | none =>
    rw [hr] at h
    cases h
    exact hu
  | some ki =>
    rw [hr] at h
    simp only [Option.map_eq_some_iff] at h
    obtain ⟨r', hr', rfl⟩ := h
    exact hu.empty_trans (reveal_upd hr')

theorem scan_upd {s : KeychainIndex K D} {l : List (OutPoint × TxOut)} {r} (h : s.scan l = some r) : Upd s r.1 r.2 := by
  have gen : ∀ (l : List (OutPoint × TxOut)) (s0 : KeychainIndex K D × DerivationAdditions K) r,
      Upd s s0.1 s0.2 → l.foldlM (fun (acc : KeychainIndex K D × DerivationAdditions K) e => do
        let r ← acc.1.scanTxout e.1 e.2
        return (r.1, DerivationAdditions.append acc.2 r.2)) s0 = some r → Upd s r.1 r.2 := by
    intro l
    induction l with
    | nil => intro s0 r hu h; cases h; exact hu
    | cons e l ih =>
      intro s0 r hu h
      rw [List.foldlM_cons] at h
      cases hs : s0.1.scanTxout e.1 e.2 with
      | none => rw [hs] at h; cases h
      | some r1 =>
        rw [hs] at h
        exact ih (r1.1, DerivationAdditions.append s0.2 r1.2) r (hu.trans (scanTxout_upd hs)) h
  exact gen l (s, OMap.empty) r (Upd.refl s) h

theorem revealMulti_upd {s : KeychainIndex K D} {m : OMap K Nat} {r} (h : s.revealToTargetMulti m = some r) : Upd s r.1 r.2.2 := by
  have gen : ∀ (l : List (K × Nat)) (s0 : KeychainIndex K D × OMap K (List (Nat × Script)) × DerivationAdditions K) r,
      Upd s s0.1 s0.2.2 → l.foldlM (fun (acc : KeychainIndex K D × OMap K (List (Nat × Script)) × DerivationAdditions K) e => do
        let r ← acc.1.revealToTarget e.1 e.2
        return (r.1, if r.2.2.isEmpty then acc.2 else (acc.2.1.insert e.1 r.2.1, DerivationAdditions.append acc.2.2 r.2.2))) s0 = some r →
      Upd s r.1 r.2.2 := by
    intro l
    induction l with
    | nil => intro s0 r hu h; cases h; exact hu
    | cons e l ih =>
      intro s0 r hu h
      rw [List.foldlM_cons] at h
      cases hs : s0.1.revealToTarget e.1 e.2 with
      | none => rw [hs] at h; cases h
      | some r1 =>
        rw [hs] at h
        refine ih (r1.1, if r1.2.2.isEmpty then s0.2 else (s0.2.1.insert e.1 r1.2.1, DerivationAdditions.append s0.2.2 r1.2.2)) r ?_ h
        have hu1 := reveal_upd hs
        by_cases he : r1.2.2.isEmpty = true
        · simp only [he, if_true]
          rw [OMap.isEmpty_iff.1 he] at hu1
          exact hu.trans_empty hu1
        · simp only [he]
          exact hu.trans hu1
  exact gen m.entries (s, OMap.empty, OMap.empty) r (Upd.refl s) h

theorem revealNext_spec {s : KeychainIndex K D} {k : K} {r} (h : s.revealNextSpk k = some r) :
    ∃ n r', s.nextIndex k = some n ∧ s.revealToTarget k n.1 = some r' ∧
      r'.1.inner.spks.get (toLex (k, n.1)) = some r.2.1.2 ∧ r.1 = r'.1 ∧ r.2.1.1 = n.1 ∧ r.2.2 = r'.2.2 := by
  unfold revealNextSpk at h
  cases hn : s.nextIndex k with
  | none => rw [hn] at h; cases h
  | some n =>
    rw [hn] at h
    change (s.revealToTarget k n.1).bind _ = _ at h
    cases hr : s.revealToTarget k n.1 with
    | none => rw [hr] at h; cases h
    | some r' =>
      rw [hr] at h
      change (r'.1.inner.spkAtIndex (toLex (k, n.1))).bind _ = _ at h
      cases hs : r'.1.inner.spkAtIndex (toLex (k, n.1)) with
      | none => rw [hs] at h; cases h
      | some spk =>
        rw [hs] at h
        cases h
        exact ⟨n, r', rfl, hr, hs, rfl, rfl, rfl⟩

theorem revealNext_upd {s : KeychainIndex K D} {k : K} {r} (h : s.revealNextSpk k = some r) : Upd s r.1 r.2.2 := by
  obtain ⟨n, r', -, hr, -, e1, -, e3⟩ := revealNext_spec h
  rw [e1, e3]; exact reveal_upd hr

theorem nextUnused_spec {s : KeychainIndex K D} {k : K} {r} (h : s.nextUnusedSpk k = some r) :
    ∃ l, s.unusedSpksOfKeychain k = some l ∧
      ((l = [] ∧ s.revealNextSpk k = some r) ∨
       (∃ l', l = (r.2.1.1, some r.2.1.2) :: l' ∧ r.1 = s ∧ r.2.2 = OMap.empty)) := by
  unfold nextUnusedSpk at h
  cases hl : s.unusedSpksOfKeychain k with
  | none => rw [hl] at h; cases h
  | some l =>
    rw [hl] at h
    refine ⟨l, rfl, ?_⟩
    cases l with
    | nil => exact Or.inl ⟨rfl, h⟩
    | cons e l' =>
      obtain ⟨i, spk⟩ := e
      right
      cases spk with
      | none => simp only [Option.bind_eq_bind, Option.bind_some] at h; cases h
      | some spk =>
        simp only [Option.bind_eq_bind, Option.bind_some] at h
        cases h
        exact ⟨l', rfl, rfl, rfl⟩

theorem nextUnused_upd {s : KeychainIndex K D} {k : K} {r} (h : s.nextUnusedSpk k = some r) : Upd s r.1 r.2.2 := by
  obtain ⟨l, -, ⟨-, h1⟩ | ⟨l', -, e1, e2⟩⟩ := nextUnused_spec h
  · exact revealNext_upd h1
  · rw [e1, e2]; exact Upd.refl s

theorem revealReserve_spec {s : KeychainIndex K D} {k : K} {r} (h : s.revealAndReserveNextSpk k = some r) :
    ∃ r', s.revealNextSpk k = some r' ∧ r.1 = (r'.1.markUsed k r'.2.1.1).1 ∧ r.2.1.1 = r'.2.1.1 ∧ r.2.2 = r'.2.2 ∧
      r.1.inner.spks.get (toLex (k, r.2.1.1)) = some r.2.1.2 := by
  unfold revealAndReserveNextSpk at h
  cases hr : s.revealNextSpk k with
  | none => rw [hr] at h; cases h
  | some r' =>
    rw [hr] at h
    simp only [Option.bind_eq_bind, Option.bind_some] at h
    cases hs : (r'.1.markUsed k r'.2.1.1).1.inner.spkAtIndex (toLex (k, r'.2.1.1)) with
    | none => rw [hs] at h; cases h
    | some spk =>
      rw [hs] at h
      cases h
      exact ⟨r', rfl, rfl, rfl, rfl, hs⟩

theorem reserveUnused_spec {s : KeychainIndex K D} {k : K} {r} (h : s.reserveNextUnusedSpk k = some r) :
    ∃ r', s.nextUnusedSpk k = some r' ∧ r.1 = (r'.1.markUsed k r'.2.1.1).1 ∧ r.2.1.1 = r'.2.1.1 ∧ r.2.2 = r'.2.2 ∧
      r.1.inner.spks.get (toLex (k, r.2.1.1)) = some r.2.1.2 := by
  unfold reserveNextUnusedSpk at h
  cases hr : s.nextUnusedSpk k with
  | none => rw [hr] at h; cases h
  | some r' =>
    rw [hr] at h
    simp only [Option.bind_eq_bind, Option.bind_some] at h
    cases hs : (r'.1.markUsed k r'.2.1.1).1.inner.spkAtIndex (toLex (k, r'.2.1.1)) with
    | none => rw [hs] at h; cases h
    | some spk =>
      rw [hs] at h
      cases h
      exact ⟨r', rfl, rfl, rfl, rfl, hs⟩

/-! ## histories -/
variable [DecidableEq D]

theorem addKeychain_inv {s s' : KeychainIndex K D} {k : K} {d : D} (h : s.addKeychain k d = some s') :
    (∀ k' d', s.keychains.get k' = some d' → s'.keychains.get k' = some d') ∧ s'.lastRevealed = s.lastRevealed ∧
    (Inv s → Inv s') := by
  unfold addKeychain at h
  cases hk : s.keychains.get k with
  | some d' =>
    rw [hk] at h
    simp only [] at h
    split_ifs at h
    cases h
    exact ⟨fun _ _ h => h, rfl, fun h => h⟩
  | none =>
    rw [hk] at h
    cases h
    refine ⟨?_, rfl, ?_⟩
    · intro k' d' hk'
      simp only [OMap.get_insert]
      rw [if_neg]
      · exact hk'
      · rintro rfl; rw [hk] at hk'; cases hk'
    · intro hi
      refine ⟨hi.hist, ?_, ?_, ?_⟩
      · intro k' hk'
        simp only [OMap.get_insert] at hk'
        by_cases hkk : k' = k
        · rw [if_pos hkk] at hk'; cases hk'
        · rw [if_neg hkk] at hk'; exact hi.absent k' hk'
      · intro k' d' hk'
        simp only [OMap.get_insert] at hk'
        by_cases hkk : k' = k
        · subst hkk
          rw [if_pos rfl] at hk'; cases hk'
          have ha := hi.absent k' hk
          refine ⟨0, fun i => ?_, Nat.zero_le _, ?_⟩
          · rw [if_neg (by omega)]; exact ha.1 i
          · unfold numRevealed lastRevealedIndex lookaheadOf
            simp only []
            rw [ha.2.1, ha.2.2]
            simp
        · rw [if_neg hkk] at hk'; exact hi.contig k' d' hk'
      · intro k' d' i hk' hw hl
        simp only [OMap.get_insert] at hk'
        by_cases hkk : k' = k
        · subst hkk
          have hl' : s.lastRevealed.get k' = some i := hl
          rw [(hi.absent k' hk).2.1] at hl'; cases hl'
        · rw [if_neg hkk] at hk'; exact hi.nw k' d' i hk' hw hl

/-- what every call guarantees -/
theorem step_spec {s : KeychainIndex K D} {op : Op K D} {r} (h : s.step op = some r) :
    (∀ k d, s.keychains.get k = some d → r.1.keychains.get k = some d) ∧
    r.1.lastRevealed = DerivationAdditions.append s.lastRevealed r.2 ∧ (AllDerivable s → Inv s → Inv r.1) := by
  have fromUpd : ∀ {s' : KeychainIndex K D} {a}, Upd s s' a →
      (∀ k d, s.keychains.get k = some d → s'.keychains.get k = some d) ∧
      s'.lastRevealed = DerivationAdditions.append s.lastRevealed a ∧ (AllDerivable s → Inv s → Inv s') :=
    fun hu => ⟨fun k d hk => by rw [hu.kc]; exact hk, hu.lr, hu.inv⟩
  cases op with
  | addKeychain k d =>
    simp only [step, Option.map_eq_some_iff] at h
    obtain ⟨s', h1, rfl⟩ := h
    obtain ⟨a, b, c⟩ := addKeychain_inv h1
    exact ⟨a, by rw [DerivationAdditions.append_empty]; exact b, fun _ => c⟩
  | setLookahead k n =>
    simp only [step, Option.map_eq_some_iff] at h
    obtain ⟨s', h1, rfl⟩ := h
    exact fromUpd (setLookahead_upd h1)
  | setLookaheadForAll n =>
    simp only [step, Option.map_eq_some_iff] at h
    obtain ⟨s', h1, rfl⟩ := h
    exact fromUpd (foldlM_upd _ (fun s a s' h => setLookahead_upd h) _ _ _ h1)
  | lookaheadToTarget k n =>
    simp only [step, Option.map_eq_some_iff] at h
    obtain ⟨s', h1, rfl⟩ := h
    exact fromUpd (lookaheadToTarget_upd h1)
  | lookaheadToTargetMulti m =>
    simp only [step, Option.map_eq_some_iff] at h
    obtain ⟨s', h1, rfl⟩ := h
    exact fromUpd (foldlM_upd (fun (s : KeychainIndex K D) (e : K × Nat) => s.lookaheadToTarget e.1 e.2) (fun s a s' h => lookaheadToTarget_upd h) _ _ _ h1)
  | revealToTarget k n =>
    simp only [step, Option.map_eq_some_iff] at h
    obtain ⟨s', h1, rfl⟩ := h
    exact fromUpd (reveal_upd h1)
  | revealToTargetMulti m =>
    simp only [step, Option.map_eq_some_iff] at h
    obtain ⟨s', h1, rfl⟩ := h
    exact fromUpd (revealMulti_upd h1)
  | applyAdditions m =>
    simp only [step, Option.map_eq_some_iff] at h
    obtain ⟨s', h1, rfl⟩ := h
    exact fromUpd (revealMulti_upd h1)
  | revealNextSpk k =>
    simp only [step, Option.map_eq_some_iff] at h
    obtain ⟨s', h1, rfl⟩ := h
    exact fromUpd (revealNext_upd h1)
  | nextUnusedSpk k =>
    simp only [step, Option.map_eq_some_iff] at h
    obtain ⟨s', h1, rfl⟩ := h
    exact fromUpd (nextUnused_upd h1)
  | revealAndReserveNextSpk k =>
    simp only [step, Option.map_eq_some_iff] at h
    obtain ⟨s', h1, rfl⟩ := h
    obtain ⟨r', hr, e1, -, e3, -⟩ := revealReserve_spec h1
    simp only []
    rw [e1, e3]
    exact fromUpd ((revealNext_upd hr).trans_empty (markUsed_upd _ _ _))
  | reserveNextUnusedSpk k =>
    simp only [step, Option.map_eq_some_iff] at h
    obtain ⟨s', h1, rfl⟩ := h
    obtain ⟨r', hr, e1, -, e3, -⟩ := reserveUnused_spec h1
    simp only []
    rw [e1, e3]
    exact fromUpd ((nextUnused_upd hr).trans_empty (markUsed_upd _ _ _))
  | markUsed k i => cases h; exact fromUpd (markUsed_upd s k i)
  | unmarkUsed k i => cases h; exact fromUpd (unmarkUsed_upd s k i)
  | scanTxout o x => exact fromUpd (scanTxout_upd h)
  | scan l => exact fromUpd (scan_upd h)

theorem runFrom_spec {ops : List (Op K D)} {s : KeychainIndex K D} {r} (h : s.runFrom ops = some r) :
    (∀ k d, s.keychains.get k = some d → r.1.keychains.get k = some d) ∧
    r.1.lastRevealed = r.2.foldl DerivationAdditions.append s.lastRevealed ∧ (AllDerivable r.1 → Inv s → Inv r.1) := by
  induction ops generalizing s r with
  | nil => cases h; exact ⟨fun _ _ h => h, rfl, fun _ h => h⟩
  | cons op ops ih =>
    unfold runFrom at h
    cases h1 : s.step op with
    | none => rw [h1] at h; cases h
    | some r1 =>
      rw [h1] at h
      simp only [Option.bind_eq_bind, Option.bind_some] at h
      cases h2 : r1.1.runFrom ops with
      | none => rw [h2] at h; cases h
      | some r2 =>
        rw [h2] at h
        cases h
        obtain ⟨a1, a2, a3⟩ := step_spec h1
        obtain ⟨b1, b2, b3⟩ := ih h2
        refine ⟨fun k d hk => b1 k d (a1 k d hk), ?_, ?_⟩
        · simp only [List.foldl_cons]
          rw [b2, a2]
        · intro hd hi
          exact b3 hd (a3 (fun k d hk => hd k d (b1 k d (a1 k d hk))) hi)

theorem inv_empty : Inv (empty : KeychainIndex K D) :=
  ⟨⟨[], rfl, fun i s s' h => absurd h firstIndex_nil⟩, fun _ _ => ⟨fun _ => rfl, rfl, rfl⟩, fun k d h => (by cases h), fun k d i h => (by cases h)⟩

theorem reachable_inv {s : KeychainIndex K D} (h : Reachable s) (hd : AllDerivable s) : Inv s := by
  obtain ⟨ops, log, h⟩ := h
  exact (runFrom_spec h).2.2 hd inv_empty

theorem runFrom_append {ops ops' : List (Op K D)} {s : KeychainIndex K D} {r r'} (h : s.runFrom ops = some r)
    (h' : r.1.runFrom ops' = some r') : s.runFrom (ops ++ ops') = some (r'.1, r.2 ++ r'.2) := by
  induction ops generalizing s r with
  | nil => cases h; exact h'
  | cons op ops ih =>
    unfold runFrom at h
    cases h1 : s.step op with
    | none => rw [h1] at h; cases h
    | some r1 =>
      rw [h1] at h
      simp only [Option.bind_eq_bind, Option.bind_some] at h
      cases h2 : r1.1.runFrom ops with
      | none => rw [h2] at h; cases h
      | some r2 =>
        rw [h2] at h
        cases h
        have := ih h2 h'
        simp only [List.cons_append]
        unfold runFrom
        rw [h1]
        simp only [Option.bind_eq_bind, Option.bind_some]
        rw [this]; rfl

theorem Reachable.step {s : KeychainIndex K D} (h : Reachable s) {op : Op K D} {r} (hr : s.step op = some r) : Reachable r.1 := by
  obtain ⟨ops, log, h⟩ := h
  have := runFrom_append (ops' := [op]) (r' := (r.1, [r.2])) h (by unfold runFrom; rw [hr]; rfl)
  exact ⟨_, _, this⟩

end KeychainIndex
end Verif
