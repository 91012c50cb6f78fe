import Verif.Lemmas.KeychainIndex4
import Verif.Spec.Rescan

/-!
# Lemmas for C81
-/

namespace Verif.KeychainIndex
open Verif.Spec
variable {K D : Type} [LinearOrder K] [DescriptorOps D]

theorem reveal_stored {s : KeychainIndex K D} {k : K} {t : Nat} {r} (h : s.revealToTarget k t = some r) (hi : Inv s)
    (hd : AllDerivable s) {d : D} (hk : s.keychains.get k = some d) (ht : t ≤ cap d) (j : Nat)
    (hj : stored r.1 k j ≠ none) : stored s k j ≠ none ∨ (j ≤ t + s.lookaheadOf k ∧ j ≤ cap d) := by
  obtain ⟨d', x', hk', hle, hle2, hst, hcase⟩ := reveal_spec h
  have : d' = d := by rw [hk] at hk'; exact (Option.some.inj hk').symm
  subst this
  have hdd := hd k d' hk
  obtain ⟨n, hc⟩ := hi.contig k d' hk
  obtain ⟨hn1, hn2, hn3⟩ := hc
  rw [nextStoreIndex_eq ⟨hn1, hn2, hn3⟩ hdd] at hst
  unfold rangeIn at hst
  obtain ⟨a1, a2, a3, a4, a5, a6⟩ := store_range hi.hist hdd hn1 hn2 (by intro i _ h; exact h) (by omega) (le_refl _) hst
  have hin : r.1.inner = x' := by
    rcases hcase with ⟨i, -, -, -, e⟩ | ⟨-, e⟩ <;> rw [e]
  have ht' : (if hasWildcard d' then t else 0) = t := by
    by_cases hw : hasWildcard d' = true
    · rw [if_pos hw]
    · rw [if_neg hw]
      unfold cap at ht
      rw [if_neg hw] at ht; omega
  rw [ht'] at a5
  unfold stored SpkIndex.spkAtIndex at hj ⊢
  rw [hin, a5] at hj
  rw [hn1]
  by_cases hjn : j < n
  · left
    rw [if_pos hjn]
    exact hdd j (by omega)
  · right
    split at hj
    · omega
    · exact absurd rfl hj

/-- exactly what one `scan_txout` does -/
theorem scanTxout_exact {s : KeychainIndex K D} {o : OutPoint} {x : TxOut} {r} (h : s.scanTxout o x = some r) (hi : Inv s)
    (hd : AllDerivable s) :
    ((∀ k i, stored s k i ≠ some x.spk) ∧ r.1 = s) ∨
    ∃ k d i, s.keychains.get k = some d ∧ stored s k i = some x.spk ∧ i ≤ cap d ∧ spkAt d i = some x.spk ∧
      (∀ o', r.1.inner.txout o' = if o' = o then some (toLex (k, i), x) else s.inner.txout o') ∧
      (∀ k', k' ≠ k → r.1.lastRevealed.get k' = s.lastRevealed.get k') ∧
      numRevealed r.1 k = max (numRevealed s k) (i + 1) ∧
      (∀ k' j, k' ≠ k → stored r.1 k' j = stored s k' j) ∧
      (∀ j, stored r.1 k j ≠ none → stored s k j ≠ none ∨ (j ≤ i + s.lookaheadOf k ∧ j ≤ cap d)) := by
  unfold scanTxout at h
  simp only [] at h
  cases hg : s.inner.spkIndices.get x.spk with
  | none =>
    rw [SpkIndex.scanTxout_none hg] at h
    cases h
    left
    refine ⟨fun k i hs => ?_, rfl⟩
    have hs' : s.inner.spks.get (toLex (k, i)) = some x.spk := hs
    rw [(hi.hist.spk_iff _ _).1 hs'] at hg; cases hg
  | some ki =>
    right
    rw [SpkIndex.scanTxout_some hg] at h
    simp only [Option.map_eq_some_iff] at h
    obtain ⟨r', hr', rfl⟩ := h
    have hu := innerScan_upd s o x
    rw [SpkIndex.scanTxout_some hg] at hu
    have hi' := hu.inv hd hi
    have hd' := AllDerivable_congr hu.kc hd
    have hst : s.inner.spks.get ki = some x.spk := (hi.hist.spk_iff _ _).2 hg
    have hki : ki = toLex ((ofLex ki).1, (ofLex ki).2) := rfl
    obtain ⟨d2, hk2, hcap, hsp⟩ := stored_known (k := (ofLex ki).1) (i := (ofLex ki).2) hi hst
    have hnr := reveal_numRevealed hr' hi' hd' (d := d2) hk2 hcap
    have hsr := reveal_stored hr' hi' hd' (d := d2) hk2 hcap
    obtain ⟨d, n, n', hk, hc, -, hc', -, e1, e2, e3, -, -, e4, e5⟩ := reveal_main hr' hi' hd'
    refine ⟨(ofLex ki).1, d2, (ofLex ki).2, hk2, hst, hcap, hsp, fun o' => ?_, fun k' hk' => ?_, hnr, fun k' j hk' => ?_, hsr⟩
    · show r'.1.inner.txouts.get o' = _
      rw [e3]
      show (s.inner.txouts.insert o (ki, x)).get o' = _
      by_cases ho : o' = o
      · rw [ho, OMap.get_insert_self, if_pos rfl]; rfl
      · rw [OMap.get_insert, if_neg ho, if_neg ho]; rfl
    · show r'.1.lastRevealed.get k' = _
      revert e5
      cases newRevealed _ (ofLex ki).1 d (ofLex ki).2 with
      | none => intro e5; rw [e5.1]
      | some i => intro e5; rw [e5.1, OMap.get_insert, if_neg hk']
    · exact e4 k' j hk'

theorem numRevealed_congr {s s' : KeychainIndex K D} {k : K} (h : s'.lastRevealed.get k = s.lastRevealed.get k) :
    numRevealed s' k = numRevealed s k := by
  unfold numRevealed lastRevealedIndex; rw [h]

theorem append_isEmpty {a b : DerivationAdditions K} (h : DerivationAdditions.append a b = OMap.empty) :
    a = OMap.empty ∧ b = OMap.empty := by
  have hk : ∀ k, optMax (a.get k) (b.get k) = none := fun k => by
    rw [← DerivationAdditions.get_append, h]; rfl
  constructor <;>
  · refine OMap.ext_get (fun k => ?_)
    have := hk k
    cases ha : a.get k <;> cases hb : b.get k <;> rw [ha, hb] at this <;> simp [optMax] at this
    rfl

/-- `scan` of a list: the additions are those of the parts -/
theorem scan_cons2 {s : KeychainIndex K D} {e : OutPoint × TxOut} {l : List (OutPoint × TxOut)} {r} (h : s.scan (e :: l) = some r) :
    ∃ r1 r2, s.scanTxout e.1 e.2 = some r1 ∧ r1.1.scan l = some r2 ∧ r.1 = r2.1 ∧ r.2 = DerivationAdditions.append r1.2 r2.2 := by
  have gen : ∀ (l : List (OutPoint × TxOut)) (s0 : KeychainIndex K D) a r,
      l.foldlM (fun (acc : KeychainIndex K D × DerivationAdditions K) e => do
        let r ← acc.1.scanTxout e.1 e.2
        return (r.1, DerivationAdditions.append acc.2 r.2)) (s0, a) = some r →
      ∃ r', l.foldlM (fun (acc : KeychainIndex K D × DerivationAdditions K) e => do
        let r ← acc.1.scanTxout e.1 e.2
        return (r.1, DerivationAdditions.append acc.2 r.2)) (s0, OMap.empty) = some r' ∧ r.1 = r'.1 ∧
        r.2 = DerivationAdditions.append a r'.2 := by
    intro l
    induction l with
    | nil => intro s0 a r h; cases h; exact ⟨(s0, OMap.empty), rfl, rfl, (DerivationAdditions.append_empty _).symm⟩
    | cons e l ih =>
      intro s0 a r h
      rw [List.foldlM_cons] at h ⊢
      cases hs : s0.scanTxout e.1 e.2 with
      | none =>
        simp only [] at h
        rw [hs] at h; cases h
      | some r1 =>
        simp only [hs] at h ⊢
        obtain ⟨q1, h1, h2, h3⟩ := ih r1.1 _ r h
        have h' := h1
        obtain ⟨q, hq⟩ : ∃ q, l.foldlM (fun (acc : KeychainIndex K D × DerivationAdditions K) e => do
          let r ← acc.1.scanTxout e.1 e.2
          return (r.1, DerivationAdditions.append acc.2 r.2)) (r1.1, DerivationAdditions.append OMap.empty r1.2) = some q := by
          have gen2 : ∀ (l : List (OutPoint × TxOut)) (s0 : KeychainIndex K D) a b r,
              l.foldlM (fun (acc : KeychainIndex K D × DerivationAdditions K) e => do
                let r ← acc.1.scanTxout e.1 e.2
                return (r.1, DerivationAdditions.append acc.2 r.2)) (s0, a) = some r →
              ∃ r', l.foldlM (fun (acc : KeychainIndex K D × DerivationAdditions K) e => do
                let r ← acc.1.scanTxout e.1 e.2
                return (r.1, DerivationAdditions.append acc.2 r.2)) (s0, b) = some r' := by
            intro l
            induction l with
            | nil => intro s0 a b r h; exact ⟨_, rfl⟩
            | cons e l ih =>
              intro s0 a b r h
              rw [List.foldlM_cons] at h ⊢
              cases hs : s0.scanTxout e.1 e.2 with
              | none => simp only [hs] at h; cases h
              | some r1 =>
                simp only [hs] at h ⊢
                exact ih r1.1 _ _ r h
          exact gen2 _ _ _ _ _ h1
        obtain ⟨q2, g1, g2, g3⟩ := ih r1.1 _ q hq
        rw [h1] at g1
        obtain rfl := Option.some.inj g1
        refine ⟨q, hq, h2.trans g2.symm, ?_⟩
        rw [h3, g3, DerivationAdditions.empty_append, DerivationAdditions.append_assoc]
  unfold scan at h
  rw [List.foldlM_cons] at h
  cases hs : s.scanTxout e.1 e.2 with
  | none => simp only [hs] at h; cases h
  | some r1 =>
    simp only [hs] at h
    obtain ⟨r', h1, h2, h3⟩ := gen l r1.1 _ r h
    refine ⟨r1, r', rfl, h1, h2, ?_⟩
    rw [h3, DerivationAdditions.empty_append]

theorem stored_keeps {s : KeychainIndex K D} (hi : Inv s) {k : K} {d : D} (hk : s.keychains.get k = some d) (j : Nat)
    (hj : stored s k j ≠ none) : stored s k j = spkAt d j := by
  obtain ⟨n, c1, c2, c3⟩ := hi.contig k d hk
  have e := c1 j
  unfold stored SpkIndex.spkAtIndex at hj ⊢
  rw [e] at hj ⊢
  split
  · rfl
  · next hn => rw [if_neg hn] at hj; exact absurd rfl hj

theorem scanTxout_stored_mono {s : KeychainIndex K D} {o : OutPoint} {x : TxOut} {r} (h : s.scanTxout o x = some r) (hi : Inv s)
    (hd : AllDerivable s) {k : K} {i : Nat} {spk : Script} (hs : stored s k i = some spk) : stored r.1 k i = some spk := by
  unfold scanTxout at h
  simp only [] at h
  cases hg : s.inner.spkIndices.get x.spk with
  | none => rw [SpkIndex.scanTxout_none hg] at h; cases h; exact hs
  | some ki =>
    rw [SpkIndex.scanTxout_some hg] at h
    simp only [Option.map_eq_some_iff] at h
    obtain ⟨r', hr', rfl⟩ := h
    have hu := innerScan_upd s o x
    rw [SpkIndex.scanTxout_some hg] at hu
    obtain ⟨d, n, n', hk, hc, hnn, hc', -, e1, e2, e3, -, -, e4, e5⟩ := reveal_main hr' (hu.inv hd hi) (AllDerivable_congr hu.kc hd)
    by_cases hkk : k = (ofLex ki).1
    · subst hkk
      have y1 : s.inner.spks.get (toLex ((ofLex ki).1, i)) = if i < n then spkAt d i else none := hc.1 i
      have y2 : r'.1.inner.spks.get (toLex ((ofLex ki).1, i)) = if i < n' then spkAt d i else none := hc'.1 i
      have hs' : s.inner.spks.get (toLex ((ofLex ki).1, i)) = some spk := hs
      rw [y1] at hs'
      split at hs'
      · show r'.1.inner.spks.get (toLex ((ofLex ki).1, i)) = some spk
        rw [y2, if_pos (by omega)]; exact hs'
      · cases hs'
    · exact (e4 k i hkk).trans hs

/-- a recorded output stays recorded as long as its outpoint does not come with another output -/
theorem scan_record_stays {s : KeychainIndex K D} {l : List (OutPoint × TxOut)} {r} (h : s.scan l = some r) (hi : Inv s)
    (hd : AllDerivable s) {o : OutPoint} {x : TxOut} {k : K} {i : Nat} (hs : stored s k i = some x.spk)
    (hx : s.inner.txout o = some (toLex (k, i), x)) (hl : ∀ y, (o, y) ∈ l → y = x) : r.1.inner.txout o = some (toLex (k, i), x) := by
  induction l generalizing s r with
  | nil => cases h; exact hx
  | cons e l ih =>
    obtain ⟨r1, r2, h1, h2, h3, -⟩ := scan_cons2 h
    have hu := scanTxout_upd h1
    rw [h3]
    refine ih h2 (hu.inv hd hi) (AllDerivable_congr hu.kc hd) (scanTxout_stored_mono h1 hi hd hs) ?_
      (fun y hy => hl y (List.mem_cons_of_mem _ hy))
    obtain ⟨-, -, a3, a4⟩ := scanTxout_main h1 hi hd
    by_cases ho : o = e.1
    · have hy : e.2 = x := hl e.2 (by rw [ho]; exact List.mem_cons_self)
      have := (a4 k i (by rw [hy]; exact hs)).1
      rw [ho, this, hy]
    · rw [a3 o ho]; exact hx

/-- a scan that reveals nothing stores no new script, and records everything that pays to a stored one -/
theorem quiet_scan {s : KeychainIndex K D} {l : List (OutPoint × TxOut)} {r} (h : s.scan l = some r) (hi : Inv s)
    (hd : AllDerivable s) (hq : r.2 = OMap.empty) (hl : OneOutput l) :
    (∀ k i, stored r.1 k i = stored s k i) ∧ r.1.lastRevealed = s.lastRevealed ∧
    (∀ e ∈ l, ∀ k i, stored s k i = some e.2.spk → i < numRevealed s k ∧ r.1.inner.txout e.1 = some (toLex (k, i), e.2)) := by
  induction l generalizing s r with
  | nil => cases h; exact ⟨fun _ _ => rfl, rfl, fun e he => absurd he (by simp)⟩
  | cons e l ih =>
    obtain ⟨r1, r2, h1, h2, h3, h4⟩ := scan_cons2 h
    rw [hq] at h4
    obtain ⟨q1, q2⟩ := append_isEmpty h4.symm
    have hu := scanTxout_upd h1
    rw [q1] at hu
    have hlr : r1.1.lastRevealed = s.lastRevealed := by rw [hu.lr, DerivationAdditions.append_empty]
    have hnr : ∀ k, numRevealed r1.1 k = numRevealed s k := fun k => numRevealed_congr (by rw [hlr])
    have hi1 := hu.inv hd hi
    have hd1 := AllDerivable_congr hu.kc hd
    obtain ⟨a1, a2, a3⟩ := ih h2 hi1 hd1 q2 (fun o x y hx hy => hl o x y (List.mem_cons_of_mem _ hx) (List.mem_cons_of_mem _ hy))
    have hst : ∀ k i, stored r1.1 k i = stored s k i := by
      rcases scanTxout_exact h1 hi hd with ⟨-, b⟩ | ⟨k, d, i, b1, b2, b3, b4, b5, b6, b7, b8, b9⟩
      · rw [b]; exact fun _ _ => rfl
      · intro k' j
        by_cases hkk : k' = k
        · subst hkk
          have hlt : i < numRevealed s k' := by rw [hnr] at b7; omega
          cases hj' : stored s k' j with
          | some spk => exact scanTxout_stored_mono h1 hi hd hj'
          | none =>
            by_contra hj
            rcases b9 j hj with g | ⟨g1, g2⟩
            · exact g hj'
            · have := stored_of_range hi b1 (i := j) (by omega) g2
              have h0 : s.inner.spks.get (toLex (k', j)) = none := hj'
              rw [this] at h0
              exact hd k' d b1 j g2 h0
        · exact b8 k' j hkk
    rw [h3]
    refine ⟨fun k i => (a1 k i).trans (hst k i), a2.trans hlr, ?_⟩
    intro e' he' k i hs
    rcases List.mem_cons.1 he' with rfl | he'
    · have := (scanTxout_main h1 hi hd).2.2.2 k i hs
      refine ⟨by rw [← hnr]; exact this.2, ?_⟩
      exact scan_record_stays h2 hi1 hd1 (by rw [hst]; exact hs) this.1
        (fun y hy => hl e'.1 y e'.2 (List.mem_cons_of_mem _ hy) List.mem_cons_self)
    · have := a3 e' he' k i (by rw [hst]; exact hs)
      rw [hnr] at this
      exact this

/-- what holds of every state between the scans -/
structure Between (s : KeychainIndex K D) (l : List (OutPoint × TxOut)) (s' : KeychainIndex K D) : Prop where
  inv : Inv s'
  kc : s'.keychains = s.keychains
  la : s'.lookahead = s.lookahead
  mono : ∀ k i spk, stored s k i = some spk → stored s' k i = some spk
  watched : ∀ k i, stored s' k i ≠ none → Watched s l k i
  txouts : ∀ o, s'.inner.txout o = s.inner.txout o ∨ ∃ x k d i, (o, x) ∈ l ∧ s.keychains.get k = some d ∧ spkAt d i = some x.spk ∧
    Watched s l k i ∧ s'.inner.txout o = some (toLex (k, i), x)
  revealed : ∀ k, s'.lastRevealed.get k = s.lastRevealed.get k ∨
    ∃ j, s'.lastRevealed.get k = some j ∧ numRevealed s k ≤ j ∧ Watched s l k j ∧ Paid s l k j

theorem between_start {s : KeychainIndex K D} (l : List (OutPoint × TxOut)) (hi : Inv s) : Between s l s :=
  ⟨hi, rfl, rfl, fun _ _ _ h => h, fun _ _ h => .stored h, fun _ => .inl rfl, fun _ => .inl rfl⟩

theorem between_txout {s s' : KeychainIndex K D} {l : List (OutPoint × TxOut)} (hb : Between s l s') (hd : AllDerivable s)
    {o : OutPoint} {x : TxOut} {r} (hm : (o, x) ∈ l) (h : s'.scanTxout o x = some r) : Between s l r.1 := by
  have hd' : AllDerivable s' := AllDerivable_congr hb.kc hd
  have hu := scanTxout_upd h
  obtain ⟨m1, m2, -, -⟩ := scanTxout_main h hb.inv hd'
  have hmono := fun k i spk (hs : stored s' k i = some spk) => scanTxout_stored_mono h hb.inv hd' hs
  rcases scanTxout_exact h hb.inv hd' with ⟨-, b⟩ | ⟨k, d, i, b1, b2, b3, b4, b5, b6, b7, b8, b9⟩
  · rw [b]; exact hb
  · have hk : s.keychains.get k = some d := by rw [← hb.kc]; exact b1
    have hw : Watched s l k i := hb.watched k i (by rw [b2]; simp)
    have hp : Paid s l k i := ⟨d, hk, (o, x), hm, b4⟩
    refine ⟨hu.inv hd' hb.inv, m1.trans hb.kc, m2.trans hb.la, fun k i spk hs => hmono k i spk (hb.mono k i spk hs), ?_, ?_, ?_⟩
    · intro k' j hj
      by_cases hkk : k' = k
      · subst hkk
        rcases b9 j hj with g | ⟨g1, g2⟩
        · exact hb.watched k' j g
        · refine .further hw hp hk ?_ g2
          have : s'.lookaheadOf k' = s.lookaheadOf k' := by unfold lookaheadOf; rw [hb.la]
          rw [← this]; exact g1
      · rw [b8 k' j hkk] at hj; exact hb.watched k' j hj
    · intro o'
      rw [b5 o']
      by_cases ho : o' = o
      · subst ho
        right
        exact ⟨x, k, d, i, hm, hk, b4, hw, if_pos rfl⟩
      · rw [if_neg ho]; exact hb.txouts o'
    · intro k'
      by_cases hkk : k' = k
      · subst hkk
        by_cases hlt : i < numRevealed s' k'
        · have e : r.1.lastRevealed.get k' = s'.lastRevealed.get k' := by
            have b7' : numRevealed r.1 k' = numRevealed s' k' := by omega
            unfold numRevealed lastRevealedIndex at b7'
            revert b7'
            cases r.1.lastRevealed.get k' <;> cases s'.lastRevealed.get k' <;> simp
          rw [e]; exact hb.revealed k'
        · have b7' : numRevealed r.1 k' = i + 1 := by omega
          right
          refine ⟨i, ?_, ?_, hw, hp⟩
          · unfold numRevealed lastRevealedIndex at b7'
            revert b7'
            cases r.1.lastRevealed.get k' <;> simp
          · have h1 : numRevealed s k' ≤ numRevealed s' k' := by
              rcases hb.revealed k' with e | ⟨j, e, h2, -⟩
              · exact le_of_eq (numRevealed_congr e).symm
              · have : numRevealed s' k' = j + 1 := by unfold numRevealed lastRevealedIndex; rw [e]
                omega
            omega
      · rw [b6 k' hkk]; exact hb.revealed k'

theorem between_scan {s : KeychainIndex K D} {l : List (OutPoint × TxOut)} (hd : AllDerivable s) : ∀ (l' : List (OutPoint × TxOut))
    (s' : KeychainIndex K D) (r), Between s l s' → (∀ e ∈ l', e ∈ l) → s'.scan l' = some r → Between s l r.1
  | [], s', r, hb, _, h => by cases h; exact hb
  | e :: l', s', r, hb, hm, h => by
    obtain ⟨r1, r2, h1, h2, h3, -⟩ := scan_cons2 h
    rw [h3]
    exact between_scan hd l' _ _ (between_txout hb hd (hm e List.mem_cons_self) h1) (fun e' he' => hm e' (List.mem_cons_of_mem _ he')) h2

theorem between_scans {s s' : KeychainIndex K D} {l : List (OutPoint × TxOut)} (hi : Inv s) (hd : AllDerivable s)
    (h : Scans s l s') : Between s l s' := by
  induction h with
  | start => exact between_start l hi
  | scan _ hm hr ih => exact between_scan hd _ _ _ ih hm hr

/-- when a whole scan reveals nothing, everything that can be found has been found -/
theorem quiet_complete {s s' : KeychainIndex K D} {l : List (OutPoint × TxOut)} (hd : AllDerivable s) (hb : Between s l s')
    {r} (h : s'.scan l = some r) (hq : r.2 = OMap.empty) (hl : OneOutput l) :
    (∀ k i, stored r.1 k i ≠ none ↔ Watched s l k i) ∧
    (∀ o x k d i, (o, x) ∈ l → s.keychains.get k = some d → spkAt d i = some x.spk → Watched s l k i →
      r.1.inner.txout o = some (toLex (k, i), x) ∧ i < numRevealed r.1 k) := by
  have hd' := AllDerivable_congr hb.kc hd
  obtain ⟨q1, q2, q3⟩ := quiet_scan h hb.inv hd' hq hl
  have hbr := between_scan hd l s' r hb (fun _ he => he) h
  have val : ∀ k d i, s.keychains.get k = some d → stored s' k i ≠ none → stored s' k i = spkAt d i :=
    fun k d i hk hs => stored_keeps hb.inv (by rw [hb.kc]; exact hk) i hs
  have all : ∀ k i, Watched s l k i → stored s' k i ≠ none := by
    intro k i hw
    induction hw with
    | stored h =>
      next k i =>
      obtain ⟨spk, hs⟩ := Option.ne_none_iff_exists'.1 h
      rw [hb.mono k i spk hs]; simp
    | further hw hp hk hi hc ih =>
      next k j d i =>
      obtain ⟨d', hk', e, he, hs⟩ := hp
      have : d' = d := by rw [hk] at hk'; exact (Option.some.inj hk').symm
      subst this
      have := (q3 e he k j (by rw [val k d' j hk ih]; exact hs)).1
      have hla : s'.lookaheadOf k = s.lookaheadOf k := by unfold lookaheadOf; rw [hb.la]
      have hr := stored_of_range hb.inv (k := k) (d := d') (i := i) (by rw [hb.kc]; exact hk) (by omega) hc
      show s'.inner.spks.get (toLex (k, i)) ≠ none
      rw [hr]; exact hd k d' hk i hc
  refine ⟨fun k i => ⟨fun h => hbr.watched k i h, fun hw => by rw [q1]; exact all k i hw⟩, ?_⟩
  intro o x k d i hm hk hs hw
  have := q3 (o, x) hm k i (by rw [val k d i hk (all k i hw)]; exact hs)
  have e : numRevealed r.1 k = numRevealed s' k := numRevealed_congr (by rw [q2])
  exact ⟨this.2, by rw [e]; exact this.1⟩

/-! ## scanning does not panic, and repeated scanning comes to an end -/

/-- the lookahead settings leave room below `u32::MAX`, and nothing past the greatest index is revealed -/
def Roomy (s : KeychainIndex K D) : Prop := LrOk s ∧ ∀ k, s.lookaheadOf k ≤ 2 ^ 31

theorem scanTxout_ok {s : KeychainIndex K D} (hi : Inv s) (hd : AllDerivable s) (hnc : NoCollision s) (hr : Roomy s)
    (o : OutPoint) (x : TxOut) : ∃ r, s.scanTxout o x = some r := by
  unfold scanTxout
  simp only []
  cases hg : s.inner.spkIndices.get x.spk with
  | none => rw [SpkIndex.scanTxout_none hg]; exact ⟨_, rfl⟩
  | some ki =>
    have hu := innerScan_upd s o x
    rw [SpkIndex.scanTxout_some hg] at hu ⊢
    simp only []
    have hst : s.inner.spks.get ki = some x.spk := (hi.hist.spk_iff _ _).2 hg
    obtain ⟨d2, hk2, hcap, hsp⟩ := stored_known (k := (ofLex ki).1) (i := (ofLex ki).2) hi hst
    have hcl := cap_le d2
    have hb : bip32MaxIndex = 2 ^ 30 := bip32Max_val
    have hla := hr.2 (ofLex ki).1
    have hu32 : 2 ^ 30 + 2 ^ 31 < u32Max := by decide
    have hnr : numRevealed s (ofLex ki).1 ≤ 2 ^ 30 + 1 := by
      unfold numRevealed lastRevealedIndex
      cases hl : s.lastRevealed.get (ofLex ki).1 with
      | none => simp
      | some i => have := hr.1 _ _ hl; simp only; omega
    obtain ⟨q, hq⟩ := reveal_ok (t := (ofLex ki).2) (k := (ofLex ki).1) (d := d2) (hu.inv hd hi) (AllDerivable_congr hu.kc hd) hnc hk2
      (show numRevealed s (ofLex ki).1 + s.lookaheadOf (ofLex ki).1 ≤ u32Max by omega)
      (show (ofLex ki).2 + s.lookaheadOf (ofLex ki).1 ≤ u32Max by omega) (by omega)
    rw [hq]
    exact ⟨_, rfl⟩

theorem scan_cons_ok {s : KeychainIndex K D} {e : OutPoint × TxOut} {l : List (OutPoint × TxOut)} {r1 r2}
    (h1 : s.scanTxout e.1 e.2 = some r1) (h2 : r1.1.scan l = some r2) : ∃ r, s.scan (e :: l) = some r := by
  have gen2 : ∀ (l : List (OutPoint × TxOut)) (s0 : KeychainIndex K D) a b r,
      l.foldlM (fun (acc : KeychainIndex K D × DerivationAdditions K) e => do
        let r ← acc.1.scanTxout e.1 e.2
        return (r.1, DerivationAdditions.append acc.2 r.2)) (s0, a) = some r →
      ∃ r', l.foldlM (fun (acc : KeychainIndex K D × DerivationAdditions K) e => do
        let r ← acc.1.scanTxout e.1 e.2
        return (r.1, DerivationAdditions.append acc.2 r.2)) (s0, b) = some r' := by
    intro l
    induction l with
    | nil => intro s0 a b r h; exact ⟨_, rfl⟩
    | cons e l ih =>
      intro s0 a b r h
      rw [List.foldlM_cons] at h ⊢
      cases hs : s0.scanTxout e.1 e.2 with
      | none => simp only [hs] at h; cases h
      | some r1 =>
        simp only [hs] at h ⊢
        exact ih r1.1 _ _ r h
  unfold scan at h2 ⊢
  rw [List.foldlM_cons]
  simp only [h1]
  exact gen2 _ _ _ _ _ h2

theorem roomy_scanTxout {s : KeychainIndex K D} {o : OutPoint} {x : TxOut} {r} (h : s.scanTxout o x = some r) (hi : Inv s)
    (hd : AllDerivable s) (hr : Roomy s) : Roomy r.1 := by
  refine ⟨scanTxout_lrOk h hi hd hr.1, fun k => ?_⟩
  have := (scanTxout_main h hi hd).2.1
  have e : r.1.lookaheadOf k = s.lookaheadOf k := by unfold lookaheadOf; rw [this]
  rw [e]; exact hr.2 k

theorem NoCollision_congr {s s' : KeychainIndex K D} (h : s'.keychains = s.keychains) (hn : NoCollision s) : NoCollision s' := by
  unfold NoCollision at hn ⊢
  rw [h]; exact hn

theorem scan_ok (l : List (OutPoint × TxOut)) : ∀ {s : KeychainIndex K D}, Inv s → AllDerivable s → NoCollision s → Roomy s →
    ∃ r, s.scan l = some r ∧ Roomy r.1 := by
  induction l with
  | nil => exact fun {s} _ _ _ hr => ⟨_, rfl, hr⟩
  | cons e l ih =>
    intro s hi hd hnc hr
    obtain ⟨r1, h1⟩ := scanTxout_ok hi hd hnc hr e.1 e.2
    have hu := scanTxout_upd h1
    obtain ⟨r2, h2, hr2⟩ := ih (hu.inv hd hi) (AllDerivable_congr hu.kc hd) (NoCollision_congr hu.kc hnc) (roomy_scanTxout h1 hi hd hr)
    obtain ⟨r, h3⟩ := scan_cons_ok h1 h2
    obtain ⟨q1, q2, g1, g2, g3, -⟩ := scan_cons2 h3
    rw [h1] at g1
    obtain rfl := Option.some.inj g1
    rw [h2] at g2
    obtain rfl := Option.some.inj g2
    exact ⟨r, h3, by rw [g3]; exact hr2⟩

/-- the output pays to a revealed script -/
def AtRevealed (s : KeychainIndex K D) (e : OutPoint × TxOut) : Prop :=
  ∃ k d j, s.keychains.get k = some d ∧ j ≤ cap d ∧ spkAt d j = some e.2.spk ∧ j < numRevealed s k

open Classical in
/-- how many of the outputs pay to revealed scripts -/
noncomputable def atRevealed (s : KeychainIndex K D) (l : List (OutPoint × TxOut)) : Nat :=
  l.countP (fun e => decide (AtRevealed s e))

theorem countP_lt {A : Type} (p q : A → Bool) : ∀ (l : List A), (∀ e ∈ l, p e = true → q e = true) → (∃ e ∈ l, p e = false ∧ q e = true) →
    l.countP p < l.countP q
  | [], _, ⟨e, he, _⟩ => absurd he (by simp)
  | a :: l, h, ⟨e, he, h1, h2⟩ => by
    rw [List.countP_cons, List.countP_cons]
    have hle : l.countP p ≤ l.countP q := List.countP_mono_left (fun e he => h e (List.mem_cons_of_mem _ he))
    rcases List.mem_cons.1 he with rfl | he
    · rw [h1, h2]; simp; omega
    · have := countP_lt p q l (fun e he => h e (List.mem_cons_of_mem _ he)) ⟨e, he, h1, h2⟩
      have ha := h a List.mem_cons_self
      cases hp : p a with
      | true => rw [ha hp]; omega
      | false => cases q a <;> simp <;> omega

theorem scanTxout_additions_new {s : KeychainIndex K D} {o : OutPoint} {x : TxOut} {r} (h : s.scanTxout o x = some r) (hi : Inv s)
    (hd : AllDerivable s) {k : K} {i : Nat} (ha : r.2.get k = some i) : numRevealed s k ≤ i := by
  unfold scanTxout at h
  simp only [] at h
  cases hg : s.inner.spkIndices.get x.spk with
  | none => rw [SpkIndex.scanTxout_none hg] at h; cases h; cases ha
  | some ki =>
    rw [SpkIndex.scanTxout_some hg] at h
    simp only [Option.map_eq_some_iff] at h
    obtain ⟨r', hr', rfl⟩ := h
    have hu := innerScan_upd s o x
    rw [SpkIndex.scanTxout_some hg] at hu
    obtain ⟨d, n, n', hk, hc, hnn, hc', -, e1, e2, e3, -, -, e4, e5⟩ := reveal_main hr' (hu.inv hd hi) (AllDerivable_congr hu.kc hd)
    have ha' : r'.2.2.get k = some i := ha
    revert e5
    cases newRevealed _ (ofLex ki).1 d (ofLex ki).2 with
    | none => intro e5; rw [e5.2.1] at ha'; cases ha'
    | some j =>
      intro e5
      rw [e5.2.1, OMap.get_insert] at ha'
      split at ha'
      · next hkk =>
        cases ha'
        rw [hkk]
        exact e5.2.2.1
      · cases ha'

theorem scan_additions_new {l : List (OutPoint × TxOut)} : ∀ {s : KeychainIndex K D} {r}, s.scan l = some r → Inv s →
    AllDerivable s → ∀ {k : K} {i : Nat}, r.2.get k = some i → numRevealed s k ≤ i := by
  induction l with
  | nil => intro s r h _ _ k i ha; cases h; cases ha
  | cons e l ih =>
    intro s r h hi hd k i ha
    obtain ⟨r1, r2, h1, h2, h3, h4⟩ := scan_cons2 h
    have hu := scanTxout_upd h1
    rw [h4, DerivationAdditions.get_append] at ha
    have hge : numRevealed s k ≤ numRevealed r1.1 k := by rw [hu.numRevealed k]; exact le_max_left _ _
    have n1 := fun i => scanTxout_additions_new h1 hi hd (k := k) (i := i)
    have n2 := fun i => ih h2 (hu.inv hd hi) (AllDerivable_congr hu.kc hd) (k := k) (i := i)
    cases ha1 : r1.2.get k with
    | none =>
      rw [ha1] at ha
      cases ha2 : r2.2.get k with
      | none => rw [ha2] at ha; cases ha
      | some b => rw [ha2] at ha; simp [optMax] at ha; have := n2 b ha2; omega
    | some a =>
      have := n1 a ha1
      rw [ha1] at ha
      cases ha2 : r2.2.get k with
      | none => rw [ha2] at ha; simp [optMax] at ha; omega
      | some b => rw [ha2] at ha; simp [optMax] at ha; omega

theorem scan_additions_empty {s : KeychainIndex K D} {l : List (OutPoint × TxOut)} {r} (h : s.scan l = some r) (hi : Inv s)
    (hd : AllDerivable s) (e : r.1.lastRevealed = s.lastRevealed) : r.2 = OMap.empty := by
  refine OMap.ext_get (fun k => ?_)
  cases ha : r.2.get k with
  | none => rfl
  | some i =>
    exfalso
    have h1 := (scan_upd h).numRevealed k
    rw [ha, numRevealed_congr (s := s) (s' := r.1) (by rw [e])] at h1
    have h2 := scan_additions_new h hi hd ha
    simp at h1
    omega

open Classical in
/-- a scan that reveals something reveals a script that is paid to -/
theorem scan_progress {s : KeychainIndex K D} {l : List (OutPoint × TxOut)} {r} (h : s.scan l = some r) (hi : Inv s)
    (hd : AllDerivable s) (hnc : NoCollision s) (hq : r.2 ≠ OMap.empty) : atRevealed s l < atRevealed r.1 l := by
  have hu := scan_upd h
  have hb := between_scan (l := l) hd l s r (between_start l hi) (fun _ he => he) h
  have hge : ∀ k, numRevealed s k ≤ numRevealed r.1 k := fun k => by rw [hu.numRevealed k]; exact le_max_left _ _
  unfold atRevealed
  refine countP_lt _ _ l (fun e _ he => ?_) ?_
  · obtain ⟨k, d, j, h1, h2, h3, h4⟩ := of_decide_eq_true he
    exact decide_eq_true ⟨k, d, j, by rw [hu.kc]; exact h1, h2, h3, lt_of_lt_of_le h4 (hge k)⟩
  · have hne : r.1.lastRevealed ≠ s.lastRevealed := by
      intro e
      exact hq (scan_additions_empty h hi hd e)
    obtain ⟨k, hk⟩ : ∃ k, r.1.lastRevealed.get k ≠ s.lastRevealed.get k := by
      by_contra hc
      exact hne (OMap.ext_get (fun k => by by_contra hh; exact hc ⟨k, hh⟩))
    rcases hb.revealed k with e | ⟨j, e1, e2, hw, d, hkd, e, he, hs⟩
    · exact absurd e hk
    · obtain ⟨hc⟩ : Nonempty (j ≤ cap d) := ⟨by
        cases hw with
        | stored hst =>
          obtain ⟨spk, hsp⟩ := Option.ne_none_iff_exists'.1 hst
          obtain ⟨d', g1, g2, -⟩ := stored_known hi (show s.inner.spks.get (toLex (k, j)) = some spk from hsp)
          rw [hkd] at g1
          rw [Option.some.inj g1]; exact g2
        | further _ _ hk' _ hc' => rw [hkd] at hk'; rw [Option.some.inj hk']; exact hc'⟩
      refine ⟨e, he, decide_eq_false ?_, decide_eq_true ⟨k, d, j, by rw [hu.kc]; exact hkd, hc, hs, ?_⟩⟩
      · rintro ⟨k', d', j', g1, g2, g3, g4⟩
        obtain ⟨rfl, rfl⟩ := hnc k d j k' d' j' e.2.spk hkd g1 hc g2 hs g3
        omega
      · unfold numRevealed lastRevealedIndex; rw [e1]; simp

end Verif.KeychainIndex
