import Verif.Lemmas.Sync
import Verif.Props.Tracker
import Verif.Props.KeychainListing

/-!
# The index side of an update: no panic, everything that pays to a revealed script is found
-/

namespace Verif.Sync
open Verif Spec KeychainIndex Props

section
variable {K D : Type} [LinearOrder K] [DescriptorOps D]

/-- what the index of a wallet satisfies -/
structure Fit (s : KeychainIndex K D) : Prop where
  inv : Inv s
  der : AllDerivable s
  nc : NoCollision s
  room : Room s

theorem cap_le (d : D) : cap d ≤ 2 ^ 30 := by
  unfold cap
  have := C38_max_index_value.1
  split <;> omega

theorem Fit.reveal {s : KeychainIndex K D} (h : Fit s) {k : K} {d : D} (hk : s.keychains.get k = some d) {i : Nat} (hi : i ≤ cap d) :
    ∃ r, s.revealToTarget k i = some r ∧ Fit r.1 ∧ r.1.keychains = s.keychains ∧ r.1.lookahead = s.lookahead ∧
      r.1.inner.txouts = s.inner.txouts ∧ (∀ k', numRevealed r.1 k' = if k' = k then max (numRevealed s k) (i + 1) else numRevealed s k') := by
  have hc := cap_le d
  have hr := h.room k
  have hu : u32Max = 2 ^ 32 - 1 := rfl
  obtain ⟨r, hr'⟩ := reveal_ok (t := i) h.inv h.der h.nc hk (by omega) (by omega) (by omega)
  obtain ⟨d', n, n', hk', -, -, -, hinv, hkc, hla, htx, -, -, -, hlr⟩ := reveal_main hr' h.inv h.der
  have : d' = d := by rw [hk] at hk'; exact (Option.some.inj hk').symm
  subst this
  have htgt : (if hasWildcard d' then i else 0) = i := by
    by_cases hw : hasWildcard d' = true
    · rw [if_pos hw]
    · rw [if_neg hw]
      unfold cap at hi
      rw [if_neg hw] at hi
      omega
  rw [newRevealed_le (by rw [htgt]; exact hi), htgt] at hlr
  have hnum : ∀ k', numRevealed r.1 k' = if k' = k then max (numRevealed s k) (i + 1) else numRevealed s k' := by
    intro k'
    by_cases hle : numRevealed s k ≤ i
    · rw [if_pos hle] at hlr
      unfold numRevealed lastRevealedIndex
      rw [hlr.1, OMap.get_insert]
      by_cases hkk : k' = k
      · rw [if_pos hkk, if_pos hkk]
        have : numRevealed s k ≤ i := hle
        unfold numRevealed lastRevealedIndex at this
        simp only
        omega
      · rw [if_neg hkk, if_neg hkk]
    · rw [if_neg hle] at hlr
      have : numRevealed r.1 k' = numRevealed s k' := by unfold numRevealed lastRevealedIndex; rw [hlr.1]
      rw [this]
      by_cases hkk : k' = k
      · rw [if_pos hkk]; subst hkk; omega
      · rw [if_neg hkk]
  refine ⟨r, hr', ⟨hinv, AllDerivable_congr hkc h.der, ?_, ?_⟩, hkc, hla, htx, hnum⟩
  · intro k1 d1 i1 k2 d2 j spk; rw [hkc]; exact h.nc k1 d1 i1 k2 d2 j spk
  · intro k'
    have := h.room k'
    rw [hnum]
    have hl : r.1.lookaheadOf k' = s.lookaheadOf k' := by unfold lookaheadOf; rw [hla]
    rw [hl]
    refine ⟨?_, this.2⟩
    split <;> omega

theorem Fit.scanTxout {s : KeychainIndex K D} (h : Fit s) (o : OutPoint) (x : TxOut) :
    ∃ r, s.scanTxout o x = some r ∧ Fit r.1 ∧ ∀ k, numRevealed s k ≤ numRevealed r.1 k := by
  unfold KeychainIndex.scanTxout
  simp only
  cases hg : s.inner.spkIndices.get x.spk with
  | none =>
    rw [SpkIndex.scanTxout_none hg]
    exact ⟨_, rfl, h, fun _ => le_refl _⟩
  | some ki =>
    have hst := (h.inv.hist.spk_iff ki _).2 hg
    obtain ⟨d, h1, h2, -⟩ := stored_known h.inv (k := (ofLex ki).1) (i := (ofLex ki).2) hst
    have hu := innerScan_upd s o x
    have hf : Fit { s with inner := (s.inner.scanTxout o x).1 } :=
      ⟨hu.inv h.der h.inv, h.der, h.nc, h.room⟩
    obtain ⟨r, hr, hfr, -, -, -, hnum⟩ := hf.reveal h1 h2
    rw [show (s.inner.scanTxout o x).2 = some ki by rw [SpkIndex.scanTxout_some hg]]
    simp only [hr, Option.map_some]
    refine ⟨_, rfl, hfr, fun k => ?_⟩
    rw [hnum]
    have : ∀ k, numRevealed { s with inner := (s.inner.scanTxout o x).1 } k = numRevealed s k := fun _ => rfl
    rw [this, this]
    split
    · next hk => subst hk; exact le_max_left _ _
    · exact le_refl _

theorem Fit.scan {s : KeychainIndex K D} (h : Fit s) (l : List (OutPoint × TxOut)) : ∃ r, s.scan l = some r ∧ Fit r.1 := by
  have gen : ∀ (l : List (OutPoint × TxOut)) (acc : KeychainIndex K D × DerivationAdditions K), Fit acc.1 →
      ∃ r, l.foldlM (fun (acc : KeychainIndex K D × DerivationAdditions K) e => do
        let r ← acc.1.scanTxout e.1 e.2
        return (r.1, DerivationAdditions.append acc.2 r.2)) acc = some r ∧ Fit r.1 := by
    intro l
    induction l with
    | nil => intro acc h; exact ⟨acc, rfl, h⟩
    | cons e l ih =>
      intro acc h
      obtain ⟨r1, h1, h2, -⟩ := h.scanTxout e.1 e.2
      rw [List.foldlM_cons, h1]
      exact ih (r1.1, DerivationAdditions.append acc.2 r1.2) h2
  exact gen l (s, OMap.empty) h

theorem Fit.additions {s : KeychainIndex K D} (h : Fit s) (a : DerivationAdditions K)
    (ha : ∀ k i, a.get k = some i → ∃ d, s.keychains.get k = some d ∧ i ≤ cap d) :
    ∃ s', s.applyAdditions a = some s' ∧ Fit s' ∧ s'.keychains = s.keychains ∧ s'.lookahead = s.lookahead ∧
      s'.inner.txouts = s.inner.txouts ∧ ∀ k, numRevealed s' k = max (numRevealed s k) ((a.get k).elim 0 (· + 1)) := by
  have gen : ∀ (l : List (K × Nat)) (s : KeychainIndex K D), Fit s → (∀ e ∈ l, ∃ d, s.keychains.get e.1 = some d ∧ e.2 ≤ cap d) →
      (l.map Prod.fst).Nodup →
      ∃ s', revealAll s l = some s' ∧ Fit s' ∧ s'.keychains = s.keychains ∧ s'.lookahead = s.lookahead ∧
        s'.inner.txouts = s.inner.txouts ∧
        (∀ k, (∀ i, (k, i) ∉ l) → numRevealed s' k = numRevealed s k) ∧
        ∀ k i, (k, i) ∈ l → numRevealed s' k = max (numRevealed s k) (i + 1) := by
    intro l
    induction l with
    | nil => intro s h _ _; exact ⟨s, rfl, h, rfl, rfl, rfl, fun _ _ => rfl, fun _ _ h => by cases h⟩
    | cons e l ih =>
      intro s h hl hn
      obtain ⟨d, hd1, hd2⟩ := hl e (List.mem_cons_self ..)
      obtain ⟨r, h1, h2, h3, h4, h5, h6⟩ := h.reveal hd1 hd2
      rw [List.map_cons, List.nodup_cons] at hn
      obtain ⟨s', g1, g2, g3, g4, g5, g6, g7⟩ := ih r.1 h2 (fun e' he' => by
        rw [h3]; exact hl e' (List.mem_cons_of_mem _ he')) hn.2
      rw [revealAll_cons, h1]
      refine ⟨s', g1, g2, g3.trans h3, g4.trans h4, g5.trans h5, ?_, ?_⟩
      · intro k hk
        rw [g6 k (fun i hi => hk i (List.mem_cons_of_mem _ hi)), h6, if_neg]
        rintro rfl
        exact hk e.2 (List.mem_cons_self ..)
      · intro k i hki
        rcases List.mem_cons.1 hki with rfl | hki
        · rw [g6 k (fun i' hi' => hn.1 (List.mem_map.2 ⟨_, hi', rfl⟩)), h6, if_pos rfl]
        · have hne : k ≠ e.1 := by
            rintro rfl
            exact hn.1 (List.mem_map.2 ⟨_, hki, rfl⟩)
          rw [g7 k i hki, h6, if_neg hne]
  obtain ⟨s', g1, g2, g3, g4, g5, g6, g7⟩ := gen a.entries s h (fun e he => ha e.1 e.2 (OMap.mem_entries.1 he)) (OMap.keys_nodup a)
  refine ⟨s', by rw [applyAdditions_eq]; exact g1, g2, g3, g4, g5, fun k => ?_⟩
  cases hk : a.get k with
  | none =>
    rw [g6 k (fun i hi => by rw [OMap.mem_entries, hk] at hi; cases hi)]
    simp
  | some i =>
    rw [g7 k i (OMap.mem_entries.2 hk)]
    rfl

theorem reveal_stored {s : KeychainIndex K D} {k : K} {t : Nat} {r} (h : s.revealToTarget k t = some r) (hi : Inv s)
    (hd : AllDerivable s) {k' : K} {i : Nat} {spk : Script} (hs : stored s k' i = some spk) : stored r.1 k' i = some spk := by
  obtain ⟨d, n, n', -, ⟨a1, -⟩, hle, ⟨b1, -⟩, -, -, -, -, -, -, hne, -⟩ := reveal_main h hi hd
  unfold stored SpkIndex.spkAtIndex at hs ⊢
  by_cases hk : k' = k
  · subst hk
    rw [a1] at hs
    rw [b1]
    by_cases hin : i < n
    · rw [if_pos hin] at hs
      rw [if_pos (by omega)]; exact hs
    · rw [if_neg hin] at hs; cases hs
  · rw [hne k' i hk]; exact hs

theorem innerScan_stored (s : KeychainIndex K D) (o : OutPoint) (x : TxOut) (k : K) (i : Nat) :
    stored { s with inner := (s.inner.scanTxout o x).1 } k i = stored s k i := by
  unfold stored SpkIndex.spkAtIndex
  cases hg : s.inner.spkIndices.get x.spk with
  | none => rw [SpkIndex.scanTxout_none hg]
  | some ki => rw [SpkIndex.scanTxout_some hg]

theorem scanTxout_stored {s : KeychainIndex K D} {o : OutPoint} {x : TxOut} {r} (h : s.scanTxout o x = some r) (hi : Inv s)
    (hd : AllDerivable s) {k : K} {i : Nat} {spk : Script} (hs : stored s k i = some spk) : stored r.1 k i = some spk := by
  have hu := innerScan_upd s o x
  have hs' := (innerScan_stored s o x k i).trans hs
  have hi' := hu.inv hd hi
  unfold KeychainIndex.scanTxout at h
  simp only at h
  cases hg : (s.inner.scanTxout o x).2 with
  | none => rw [hg] at h; cases h; exact hs'
  | some ki =>
    rw [hg] at h
    simp only [Option.map_eq_some_iff] at h
    obtain ⟨r', hr', rfl⟩ := h
    exact reveal_stored hr' hi' hd hs'

/-- an output that pays a stored script is found -/
theorem scan_finds_stored {s : KeychainIndex K D} {l : List (OutPoint × TxOut)} {r} (h : s.scan l = some r) (hi : Inv s)
    (hd : AllDerivable s) (hnd : (l.map Prod.fst).Nodup) {o : OutPoint} {x : TxOut} (hm : (o, x) ∈ l) {k : K} {i : Nat}
    (hx : stored s k i = some x.spk) : r.1.inner.txout o = some (toLex (k, i), x) := by
  induction l generalizing s r with
  | nil => cases hm
  | cons e l ih =>
    obtain ⟨r1, r2, g1, g2, g3⟩ := scan_cons h
    have hu := scanTxout_upd g1
    obtain ⟨-, -, a3, a4⟩ := scanTxout_main g1 hi hd
    have hi1 := hu.inv hd hi
    have hd1 := AllDerivable_congr hu.kc hd
    have hnd' := List.nodup_cons.1 (by simpa using hnd : (e.1 :: l.map Prod.fst).Nodup)
    rw [g3]
    rcases List.mem_cons.1 hm with rfl | hm
    · obtain ⟨c1, c2⟩ := a4 k i hx
      obtain ⟨b1, b2, b3, b4⟩ := scan_keeps g2 hi1 hd1
      rw [b3 o (fun y hy => hnd'.1 (List.mem_map.2 ⟨_, hy, rfl⟩))]
      exact c1
    · exact ih g2 hi1 hd1 hnd'.2 hm (scanTxout_stored g1 hi hd hx)

theorem additions_stored {s s' : KeychainIndex K D} (hf : Fit s) {a : DerivationAdditions K} (h : s.applyAdditions a = some s')
    (ha : ∀ k i, a.get k = some i → ∃ d, s.keychains.get k = some d ∧ i ≤ cap d)
    {k : K} {i : Nat} {spk : Script} (hs : stored s k i = some spk) : stored s' k i = some spk := by
  rw [applyAdditions_eq] at h
  have ha' : ∀ e ∈ a.entries, ∃ d, s.keychains.get e.1 = some d ∧ e.2 ≤ cap d := fun e he => ha e.1 e.2 (OMap.mem_entries.1 he)
  generalize a.entries = l at h ha'
  induction l generalizing s with
  | nil => cases h; exact hs
  | cons e l ih =>
    rw [revealAll_cons] at h
    obtain ⟨d, hd1, hd2⟩ := ha' e List.mem_cons_self
    obtain ⟨r, h1, h2, h3, -⟩ := hf.reveal hd1 hd2
    rw [h1] at h
    exact ih h2 (by rw [h3]; exact ha) (reveal_stored h1 hf.inv hf.der hs) h (fun e' he' => by rw [h3]; exact ha' e' (List.mem_cons_of_mem _ he'))

end

end Verif.Sync
