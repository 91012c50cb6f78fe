import Verif.Lemmas.KeychainIndex4
import Verif.Props.Demo

/-!
# Properties C33–C38: `KeychainTxOutIndex` and `DerivationAdditions`

`Reachable s`: `s` is the result of some sequence of calls, none of which panicked, on a new index.
-/

namespace Verif.Props
open Verif Verif.Spec Verif.KeychainIndex
variable {K D : Type} [LinearOrder K] [DescriptorOps D] [DecidableEq D]

/-! ### concrete descriptors -/

/-- script of index `i`: `4 * i + base` -/
structure DemoDesc where
  wild : Bool
  base : Fin 4
deriving DecidableEq

instance : DescriptorOps DemoDesc := ⟨DemoDesc.wild, fun d i => some (4 * i + d.base.val)⟩

theorem demo_derivable (d : DemoDesc) : Derivable d := fun i _ h => by cases h
theorem demo_allDerivable (s : KeychainIndex (Fin 3) DemoDesc) : AllDerivable s := fun _ d _ => demo_derivable d

/-- distinct keychains have distinct bases -/
def DemoBases (s : KeychainIndex (Fin 3) DemoDesc) : Prop := ∀ k, ∀ d ∈ s.keychains.get k, d.base.val = k.val

instance (s : KeychainIndex (Fin 3) DemoDesc) : Decidable (DemoBases s) := by unfold DemoBases; infer_instance

theorem demo_noCollision {s : KeychainIndex (Fin 3) DemoDesc} (h : DemoBases s) : NoCollision s := by
  intro k d i k' d' j spk hk hk' _ _ h1 h2
  have a := h k d hk
  have b := h k' d' hk'
  have c1 : 4 * i + d.base.val = spk := Option.some.inj h1
  have c2 : 4 * j + d'.base.val = spk := Option.some.inj h2
  have := d.base.isLt
  have := d'.base.isLt
  refine ⟨Fin.ext ?_, ?_⟩ <;> omega

/-- two wildcard keychains and one without; lookahead 2 on the first; reveals; an output to index 4 of keychain 0 is found -/
def exKcOps : List (KeychainIndex.Op (Fin 3) DemoDesc) :=
  [.addKeychain 0 ⟨true, 0⟩, .addKeychain 1 ⟨true, 1⟩, .addKeychain 2 ⟨false, 2⟩, .setLookahead 0 2, .revealToTarget 0 2,
   .revealNextSpk 1, .revealNextSpk 1, .revealNextSpk 2, .scanTxout ⟨dId 1, 0⟩ ⟨30, 16⟩, .reserveNextUnusedSpk 1,
   .scanTxout ⟨dId 2, 0⟩ ⟨30, 0⟩]

/-- the index after these calls -/
def exKc : KeychainIndex (Fin 3) DemoDesc := (((empty : KeychainIndex (Fin 3) DemoDesc).runFrom exKcOps).map Prod.fst).getD empty

theorem exKc_reachable : Reachable exKc := by
  refine ⟨exKcOps, (((empty : KeychainIndex (Fin 3) DemoDesc).runFrom exKcOps).map Prod.snd).getD [], ?_⟩
  unfold exKc
  have : ((empty : KeychainIndex (Fin 3) DemoDesc).runFrom exKcOps).isSome = true := by decide +kernel
  cases h : (empty : KeychainIndex (Fin 3) DemoDesc).runFrom exKcOps with
  | none => rw [h] at this; cases this
  | some r => rfl

theorem exKc_bases : DemoBases exKc := by decide +kernel

example : exKc.lastRevealed.entries = [(0, 4), (1, 1), (2, 0)] ∧ exKc.nextStoreIndex 0 = 7 ∧ exKc.lookaheadOf 0 = 2 := by
  decide +kernel

/-! ## C33 -/

/-- **C33** after any history the stored scripts of a keychain are exactly those of the descriptor at `0, …, n-1`; all the
revealed ones and the lookahead ones are there (up to the largest derivable index), and no index above the largest derivable one -/
theorem C33_stored_contiguous {s : KeychainIndex K D} (h : Reachable s) (hd : AllDerivable s) (k : K) (d : D)
    (hk : s.keychains.get k = some d) :
    ∃ n, (∀ i, stored s k i = if i < n then spkAt d i else none) ∧ n ≤ cap d + 1 ∧
      min (numRevealed s k + s.lookaheadOf k) (cap d + 1) ≤ n :=
  (reachable_inv h hd).contig k d hk

/-- **C33** nothing is stored for a keychain that was not added -/
theorem C33_unknown_keychain_empty {s : KeychainIndex K D} (h : Reachable s) (hd : AllDerivable s) (k : K)
    (hk : s.keychains.get k = none) (i : Nat) : stored s k i = none :=
  ((reachable_inv h hd).absent k hk).1 i

/-- **C33** looking a stored script up gives back its keychain and index -/
theorem C33_index_of_stored {s : KeychainIndex K D} (h : Reachable s) (hd : AllDerivable s) (k : K) (i : Nat) (spk : Script) :
    stored s k i = some spk ↔ s.inner.indexOfSpk spk = some (toLex (k, i)) :=
  (reachable_inv h hd).hist.spk_iff _ _

/-- **C33** if the scripts do not collide, `reveal_to_target` and `set_lookahead` do not panic (the targets being far from the
`u32` limit) -/
theorem C33_no_panic {s : KeychainIndex K D} (h : Reachable s) (hd : AllDerivable s) (hnc : NoCollision s) (k : K) (d : D)
    (hk : s.keychains.get k = some d) :
    (∀ t, numRevealed s k + s.lookaheadOf k ≤ u32Max → t + s.lookaheadOf k ≤ u32Max → t < u32Max →
      ∃ r, s.revealToTarget k t = some r) ∧
    (∀ n, numRevealed s k + n ≤ u32Max → ∃ s', s.setLookahead k n = some s') :=
  ⟨fun _ h1 h2 h3 => reveal_ok (reachable_inv h hd) hd hnc hk h1 h2 h3, fun _ h1 => setLookahead_ok (reachable_inv h hd) hd hnc hk h1⟩

/-- two keychains with the same descriptor -/
def sameDescOps : List (KeychainIndex.Op (Fin 3) DemoDesc) :=
  [.addKeychain 0 ⟨true, 1⟩, .addKeychain 1 ⟨true, 1⟩, .revealNextSpk 0]

/-- **C33** with two keychains that share a descriptor (nothing forbids it) the first reveal of the second one panics -/
theorem C33_same_descriptor_panics : ∃ s log, (empty : KeychainIndex (Fin 3) DemoDesc).runFrom sameDescOps = some (s, log) ∧
    s.revealNextSpk 1 = none ∧ s.keychains.get 1 = some ⟨true, 1⟩ ∧ stored s 1 0 = none := by
  have h1 : ((empty : KeychainIndex (Fin 3) DemoDesc).runFrom sameDescOps).isSome = true := by decide +kernel
  have h2 : ∀ r ∈ (empty : KeychainIndex (Fin 3) DemoDesc).runFrom sameDescOps,
    r.1.revealNextSpk 1 = none ∧ r.1.keychains.get 1 = some ⟨true, 1⟩ ∧ stored r.1 1 0 = none := by decide +kernel
  cases h : (empty : KeychainIndex (Fin 3) DemoDesc).runFrom sameDescOps with
  | none => rw [h] at h1; cases h1
  | some r => exact ⟨r.1, r.2, rfl, h2 r h⟩

example : ∃ d, exKc.keychains.get 0 = some d ∧ stored exKc 0 6 = some 24 ∧ stored exKc 0 7 = none :=
  ⟨⟨true, 0⟩, by decide +kernel⟩
example : NoCollision exKc ∧ numRevealed exKc 0 + exKc.lookaheadOf 0 ≤ u32Max := ⟨demo_noCollision exKc_bases, by decide +kernel⟩

/-! ## C34 -/

/-- the scripts of indices `a, …, b-1` -/
def spksBetween (d : D) (a b : Nat) : List (Nat × Script) :=
  (List.range' a (b - a)).map (fun i => (i, (spkAt d i).getD 0))

/-- **C34** `reveal_to_target` with a derivable target: the last revealed index becomes the maximum, exactly the new scripts are
returned, in order, and the additions hold the new index iff it changed; other keychains keep theirs -/
theorem C34_reveal_to_target {s : KeychainIndex K D} (h : Reachable s) (hd : AllDerivable s) (k : K) (target : Nat) (r)
    (hr : s.revealToTarget k target = some r) (d : D) (hk : s.keychains.get k = some d) (t : Nat)
    (ht : t = if hasWildcard d then target else 0) (hcap : t ≤ cap d) :
    numRevealed r.1 k = max (numRevealed s k) (t + 1) ∧
    r.2.1 = spksBetween d (numRevealed s k) (t + 1) ∧
    r.2.2 = (if numRevealed s k ≤ t then OMap.empty.insert k t else OMap.empty) ∧
    (∀ k', k' ≠ k → r.1.lastRevealedIndex k' = s.lastRevealedIndex k') := by
  obtain ⟨d', n, n', hk', -, -, -, -, -, -, -, -, -, -, hlr⟩ := reveal_main hr (reachable_inv h hd) hd
  have : d' = d := by rw [hk] at hk'; exact (Option.some.inj hk').symm
  subst this
  rw [newRevealed_le (by rw [← ht]; exact hcap), ← ht] at hlr
  by_cases hle : numRevealed s k ≤ t
  · rw [if_pos hle] at hlr
    obtain ⟨h1, h2, -, h4⟩ := hlr
    refine ⟨?_, ?_, ?_, ?_⟩
    · have : numRevealed r.1 k = t + 1 := by
        unfold numRevealed lastRevealedIndex; rw [h1, OMap.get_insert_self]
      omega
    · rw [h4]
      unfold rangeEx spksBetween
      rw [derive_range d' (hd k d' hk), min_eq_left (by omega)]
    · rw [if_pos hle, h2]
    · intro k' hne
      unfold lastRevealedIndex
      rw [h1, OMap.get_insert, if_neg hne]
  · rw [if_neg hle] at hlr
    obtain ⟨h1, h2, h3⟩ := hlr
    refine ⟨?_, ?_, ?_, ?_⟩
    · have : numRevealed r.1 k = numRevealed s k := by unfold numRevealed lastRevealedIndex; rw [h1]
      omega
    · rw [h3]
      unfold spksBetween
      have : t + 1 - numRevealed s k = 0 := by omega
      rw [this]; rfl
    · rw [if_neg hle, h2]
    · intro k' _
      unfold lastRevealedIndex
      rw [h1]

/-- **C34** the scripts `reveal_to_target` returns are really stored afterwards, under the index returned with them -/
theorem C34_revealed_are_stored {s : KeychainIndex K D} (h : Reachable s) (hd : AllDerivable s) (k : K) (target : Nat) (r)
    (hr : s.revealToTarget k target = some r) (i : Nat) (spk : Script) (hm : (i, spk) ∈ r.2.1) :
    stored r.1 k i = some spk := by
  obtain ⟨d, n, n', hk, -, -, hc, hi', -, -, -, -, -, -, hlr⟩ := reveal_main hr (reachable_inv h hd) hd
  have hdd := hd k d hk
  cases hn : newRevealed s k d target with
  | none => rw [hn] at hlr; rw [hlr.2.2] at hm; cases hm
  | some j =>
    rw [hn] at hlr
    obtain ⟨h1, -, -, h4⟩ := hlr
    have hnum : numRevealed r.1 k = j + 1 := by
      unfold numRevealed lastRevealedIndex; rw [h1, OMap.get_insert_self]
    rw [h4] at hm
    unfold rangeEx at hm
    rw [derive_range d hdd, List.mem_map] at hm
    obtain ⟨i', hi', he⟩ := hm
    rw [List.mem_range'_1] at hi'
    cases he
    have hlt : i < n' := by
      have := hc.2.2
      rw [hnum] at this
      omega
    show r.1.inner.spks.get _ = _
    rw [hc.1 i, if_pos hlt]
    cases hs : spkAt d i with
    | none => exact absurd hs (hdd i (by omega))
    | some x => rfl

/-- **C34** no call ever lowers a last revealed index -/
theorem C34_monotone {s : KeychainIndex K D} (op : KeychainIndex.Op K D) (r) (hr : s.step op = some r) (k : K) (i : Nat)
    (h : s.lastRevealedIndex k = some i) : ∃ j, r.1.lastRevealedIndex k = some j ∧ i ≤ j := by
  have := (step_spec hr).2.1
  unfold lastRevealedIndex at *
  rw [this, DerivationAdditions.get_append, h]
  cases OMap.get r.2 k with
  | none => exact ⟨i, rfl, le_refl _⟩
  | some j => exact ⟨max i j, rfl, le_max_left _ _⟩

/-- **C34** `reveal_next_spk` reveals exactly the index after the last revealed one and returns its script; when that is not
possible (no wildcard, or the last index is reached) it returns the last revealed one and changes nothing -/
theorem C34_reveal_next_spk {s : KeychainIndex K D} (h : Reachable s) (hd : AllDerivable s) (k : K) (r)
    (hr : s.revealNextSpk k = some r) (d : D) (hk : s.keychains.get k = some d) :
    let i := min (numRevealed s k) (cap d)
    r.2.1.1 = i ∧ spkAt d i = some r.2.1.2 ∧ r.1.lastRevealedIndex k = some i ∧
    r.2.2 = (if numRevealed s k ≤ cap d then OMap.empty.insert k i else OMap.empty) ∧
    (∀ k', k' ≠ k → r.1.lastRevealedIndex k' = s.lastRevealedIndex k') := by
  intro i
  obtain ⟨n, r', hn, hr', hs, e1, e2, e3⟩ := revealNext_spec hr
  have hcapd := cap_le d
  have hn1 : n.1 = i ∧ n.1 ≤ cap d ∧ numRevealed s k ≤ cap d + 1 := by
    unfold nextIndex at hn
    rw [hk] at hn
    simp only [] at hn
    show n.1 = min (numRevealed s k) (cap d) ∧ _
    cases hl : s.lastRevealed.get k with
    | none =>
      have h0 : numRevealed s k = 0 := by unfold numRevealed lastRevealedIndex; rw [hl]
      rw [hl] at hn
      cases hn
      rw [h0]
      simp
    | some v =>
      have h0 : numRevealed s k = v + 1 := by unfold numRevealed lastRevealedIndex; rw [hl]
      rw [hl] at hn
      simp only [] at hn
      by_cases hw : hasWildcard d = true
      · have hc : cap d = bip32MaxIndex := by unfold cap; rw [if_pos hw]
        rw [hw] at hn
        simp only [Bool.not_true, Bool.false_eq_true, if_false] at hn
        by_cases h1 : v > bip32MaxIndex
        · rw [if_pos h1] at hn; cases hn
        · rw [if_neg h1] at hn
          by_cases h2 : v = bip32MaxIndex
          · rw [if_pos h2] at hn
            cases hn
            simp only []
            omega
          · rw [if_neg h2] at hn
            cases hn
            simp only []
            omega
      · have hc : cap d = 0 := by unfold cap; rw [if_neg hw]
        simp only [hw, Bool.not_false, if_true] at hn
        cases hn
        have hv : v = 0 := (reachable_inv h hd).nw k d v hk (by simpa using hw) hl
        simp only []
        omega
  obtain ⟨hni, hncap, hnr⟩ := hn1
  have ht : n.1 = if hasWildcard d then n.1 else 0 := by
    by_cases hw : hasWildcard d = true
    · rw [if_pos hw]
    · rw [if_neg hw]
      have hc : cap d = 0 := by unfold cap; rw [if_neg hw]
      omega
  obtain ⟨a1, a2, a3, a4⟩ := C34_reveal_to_target h hd k n.1 r' hr' d hk n.1 ht hncap
  have hsp := (reachable_inv h hd)
  obtain ⟨d2, hk2, -, hs2⟩ := stored_known ((reveal_upd hr').inv hd hsp) hs
  have : d2 = d := by
    rw [(reveal_upd hr').kc, hk] at hk2; exact (Option.some.inj hk2).symm
  subst this
  refine ⟨e2.trans hni, by rw [← hni]; exact hs2, ?_, ?_, ?_⟩
  · rw [e1]
    have : numRevealed r'.1 k = i + 1 := by
      rw [a1]; show _ = min (numRevealed s k) (cap d2) + 1
      rw [hni]; show max _ (min (numRevealed s k) (cap d2) + 1) = _
      omega
    unfold numRevealed at this
    cases hl : r'.1.lastRevealedIndex k with
    | none => rw [hl] at this; simp at this
    | some v => rw [hl] at this; simp only [Nat.add_right_cancel_iff] at this; rw [this]
  · rw [e3, a3]
    have hiv : n.1 = min (numRevealed s k) (cap d2) := hni
    by_cases hle : numRevealed s k ≤ cap d2
    · rw [if_pos hle, if_pos (by omega), hni]
    · rw [if_neg hle, if_neg (by omega)]
  · intro k' hne
    rw [e1]; exact a4 k' hne

/-- **C34** `next_index` tells exactly what `reveal_next_spk` will do: the index, and whether it is new -/
theorem C34_next_index_agrees {s : KeychainIndex K D} (h : Reachable s) (hd : AllDerivable s) (k : K) (r)
    (hr : s.revealNextSpk k = some r) : ∃ n, s.nextIndex k = some n ∧ r.2.1.1 = n.1 ∧ (n.2 = true ↔ r.2.2 ≠ OMap.empty) := by
  obtain ⟨n, r', hn, hr', hs, e1, e2, e3⟩ := revealNext_spec hr
  obtain ⟨d, -, -, hk, -⟩ := reveal_main hr' (reachable_inv h hd) hd
  refine ⟨n, hn, e2, ?_⟩
  obtain ⟨-, -, -, h4, -⟩ := C34_reveal_next_spk h hd k r hr d hk
  have hne : ∀ i, (OMap.empty.insert k i : OMap K Nat) ≠ OMap.empty := by
    intro i he
    have : (OMap.empty.insert k i : OMap K Nat).get k = none := by rw [he]; rfl
    rw [OMap.get_insert_self] at this; cases this
  have hcapd := cap_le d
  unfold nextIndex at hn
  rw [hk] at hn
  simp only [] at hn
  cases hl : s.lastRevealed.get k with
  | none =>
    have h0 : numRevealed s k = 0 := by unfold numRevealed lastRevealedIndex; rw [hl]
    rw [hl] at hn; cases hn
    rw [h4, h0, if_pos (Nat.zero_le _)]
    simp [hne]
  | some v =>
    have h0 : numRevealed s k = v + 1 := by unfold numRevealed lastRevealedIndex; rw [hl]
    rw [hl] at hn
    simp only [] at hn
    by_cases hw : hasWildcard d = true
    · have hc : cap d = bip32MaxIndex := by unfold cap; rw [if_pos hw]
      rw [hw] at hn
      simp only [Bool.not_true, Bool.false_eq_true, if_false] at hn
      by_cases h1 : v > bip32MaxIndex
      · rw [if_pos h1] at hn; cases hn
      · rw [if_neg h1] at hn
        by_cases h2 : v = bip32MaxIndex
        · rw [if_pos h2] at hn
          cases hn
          rw [h4, if_neg (by omega)]
          simp
        · rw [if_neg h2] at hn
          cases hn
          rw [h4, if_pos (by omega)]
          simp [hne]
    · have hc : cap d = 0 := by unfold cap; rw [if_neg hw]
      simp only [hw, Bool.not_false, if_true] at hn
      cases hn
      rw [h4, if_neg (by omega)]
      simp

/-- the first keychain only, with a huge lookahead -/
def bigOps (la : Nat) : List (KeychainIndex.Op (Fin 3) DemoDesc) := [.addKeychain 0 ⟨true, 0⟩, .setLookahead 0 la]

theorem bigOps_ok (la : Nat) (h : la ≤ u32Max) : ∃ s log, (empty : KeychainIndex (Fin 3) DemoDesc).runFrom (bigOps la) = some (s, log) ∧
    s.keychains = OMap.empty.insert 0 ⟨true, 0⟩ ∧ s.lastRevealed = OMap.empty ∧ s.lookaheadOf 0 = la := by
  let s0 : KeychainIndex (Fin 3) DemoDesc := { (empty : KeychainIndex (Fin 3) DemoDesc) with keychains := OMap.empty.insert 0 ⟨true, 0⟩ }
  have e0 : (empty : KeychainIndex (Fin 3) DemoDesc).step (.addKeychain 0 ⟨true, 0⟩) = some (s0, OMap.empty) := rfl
  have hr0 : Reachable s0 := ⟨[.addKeychain 0 ⟨true, 0⟩], [OMap.empty], rfl⟩
  have hi := reachable_inv hr0 (demo_allDerivable s0)
  obtain ⟨s1, hs1⟩ := setLookahead_ok (la := la) hi (demo_allDerivable s0) (demo_noCollision (by decide +kernel)) (k := 0)
    (d := ⟨true, 0⟩) rfl (by show 0 + la ≤ _; omega)
  obtain ⟨d, n, -, -, -, a1, a2, a3, -⟩ := setLookahead_inv hs1 hi (demo_allDerivable s0)
  refine ⟨s1, [OMap.empty, OMap.empty], ?_, a1, a2, ?_⟩
  · unfold bigOps runFrom
    rw [e0]
    simp only [Option.bind_eq_bind, Option.bind_some]
    unfold runFrom
    have : s0.step (.setLookahead 0 la) = some (s1, OMap.empty) := by
      simp only [step]; rw [hs1]; rfl
    rw [this]; rfl
  · unfold lookaheadOf
    rw [a3, OMap.get_insert_self]; rfl

/-- **C34** the documentation promises a best effort for targets that cannot be derived. That is not so: with a lookahead that
reaches the last index, `reveal_to_target` of a larger target reveals nothing, although no index was revealed before -/
theorem C34_best_effort_fails : ∃ s log r, (empty : KeychainIndex (Fin 3) DemoDesc).runFrom (bigOps (bip32MaxIndex + 1)) = some (s, log) ∧
    s.revealToTarget 0 (bip32MaxIndex + 1) = some r ∧ s.lastRevealedIndex 0 = none ∧ r.1.lastRevealedIndex 0 = none ∧
    r.2.1 = [] := by
  obtain ⟨s, log, h1, h2, h3, h4⟩ := bigOps_ok (bip32MaxIndex + 1) (by decide +kernel)
  have hr : Reachable s := ⟨_, _, h1⟩
  have hi := reachable_inv hr (demo_allDerivable s)
  have hn0 : numRevealed s 0 = 0 := by unfold numRevealed lastRevealedIndex; rw [h3]; rfl
  have hk : s.keychains.get 0 = some ⟨true, 0⟩ := by rw [h2]; decide +kernel
  obtain ⟨r, hr⟩ := reveal_ok (t := bip32MaxIndex + 1) hi (demo_allDerivable s)
    (demo_noCollision (by unfold DemoBases; rw [h2]; decide +kernel)) hk
    (by rw [hn0, h4]; decide +kernel) (by rw [h4]; decide +kernel) (by decide +kernel)
  refine ⟨s, log, r, h1, hr, by unfold lastRevealedIndex; rw [h3]; rfl, ?_⟩
  obtain ⟨d, n, n', hk', -, -, -, -, -, -, -, -, -, -, hlr⟩ := reveal_main hr hi (demo_allDerivable s)
  rw [hk] at hk'
  cases hk'
  have hnew : newRevealed s 0 (⟨true, 0⟩ : DemoDesc) (bip32MaxIndex + 1) = none := by
    unfold newRevealed
    rw [hn0, h4]; decide +kernel
  rw [hnew] at hlr
  exact ⟨by unfold lastRevealedIndex; rw [hlr.1, h3]; rfl, hlr.2.2⟩

example : ∃ r, exKc.revealToTarget 0 6 = some r ∧ r.2.1 = [(5, 20), (6, 24)] := by
  have h1 : (exKc.revealToTarget 0 6).isSome = true := by decide +kernel
  have h2 : ∀ r ∈ exKc.revealToTarget 0 6, r.2.1 = [(5, 20), (6, 24)] := by decide +kernel
  cases h : exKc.revealToTarget 0 6 with
  | none => rw [h] at h1; cases h1
  | some r => exact ⟨r, rfl, h2 r h⟩

/-! ## C35 -/

/-- **C35** merging additions is commutative, associative and idempotent, the empty additions are neutral -/
theorem C35_append_semilattice (a b c : DerivationAdditions K) :
    DerivationAdditions.append a b = DerivationAdditions.append b a ∧
    DerivationAdditions.append (DerivationAdditions.append a b) c = DerivationAdditions.append a (DerivationAdditions.append b c) ∧
    DerivationAdditions.append a a = a ∧ DerivationAdditions.append a OMap.empty = a :=
  ⟨DerivationAdditions.append_comm a b, DerivationAdditions.append_assoc a b c, DerivationAdditions.append_self a,
    DerivationAdditions.append_empty a⟩

/-- **C35** the merged value of a keychain is the larger one -/
theorem C35_append_max (a b : DerivationAdditions K) (k : K) (i : Nat) :
    (DerivationAdditions.append a b).get k = some i ↔
      (a.get k = some i ∧ ∀ j, b.get k = some j → j ≤ i) ∨ (b.get k = some i ∧ ∀ j, a.get k = some j → j ≤ i) := by
  rw [DerivationAdditions.get_append]
  cases ha : OMap.get a k <;> cases hb : OMap.get b k <;> simp [optMax]
  omega

/-- **C35** the log of all returned additions, merged in any order, is exactly the last revealed indices -/
theorem C35_log_is_state (ops : List (KeychainIndex.Op K D)) (s : KeychainIndex K D) (log : List (DerivationAdditions K))
    (h : (empty : KeychainIndex K D).runFrom ops = some (s, log)) (log' : List (DerivationAdditions K)) (hp : log'.Perm log) (k : K) :
    s.lastRevealedIndex k = (log'.foldl DerivationAdditions.append OMap.empty).get k := by
  have h1 := (runFrom_spec h).2.1
  have h2 : log'.foldl DerivationAdditions.append OMap.empty = log.foldl DerivationAdditions.append OMap.empty := by
    refine hp.foldl_eq' ?_ _
    intro a _ b _ z
    rw [DerivationAdditions.append_assoc, DerivationAdditions.append_assoc, DerivationAdditions.append_comm a b]
  rw [h2]
  unfold lastRevealedIndex
  have h1' : s.lastRevealed = log.foldl DerivationAdditions.append OMap.empty := h1
  rw [h1']

/-- `apply_additions` of several additions in turn -/
def applyAll (s : KeychainIndex K D) (log : List (DerivationAdditions K)) : Option (KeychainIndex K D) :=
  log.foldlM (fun s a => s.applyAdditions a) s

theorem applyAll_spec (log : List (DerivationAdditions K)) (s s' : KeychainIndex K D) (h : applyAll s log = some s') (hi : Inv s)
    (hd : AllDerivable s) (hm : ∀ a ∈ log, ∀ k i, a.get k = some i → ∀ d, s.keychains.get k = some d → i ≤ cap d) :
    s'.lastRevealed = log.foldl DerivationAdditions.append s.lastRevealed := by
  induction log generalizing s with
  | nil => cases h; rfl
  | cons a log ih =>
    unfold applyAll at h
    rw [List.foldlM_cons] at h
    cases ha : s.applyAdditions a with
    | none => rw [ha] at h; cases h
    | some s1 =>
      rw [ha] at h
      unfold applyAdditions at ha
      rw [Option.map_eq_some_iff] at ha
      obtain ⟨r, hr, rfl⟩ := ha
      have hu := revealMulti_upd hr
      have := ih r.1 h (hu.inv hd hi) (AllDerivable_congr hu.kc hd) (fun a' ha' k i h1 d h2 =>
        hm a' (List.mem_cons_of_mem _ ha') k i h1 d (by rw [← hu.kc]; exact h2))
      rw [this, revealMulti_exact hr hi hd (hm a (List.mem_cons_self ..))]
      rfl

/-- **C35** recovery: applying the log, in any order, to an index with the same keychains (and any lookahead) on which nothing
was revealed gives the same last revealed indices -/
theorem C35_replay (ops : List (KeychainIndex.Op K D)) (s : KeychainIndex K D) (log : List (DerivationAdditions K))
    (h : (empty : KeychainIndex K D).runFrom ops = some (s, log)) (log' : List (DerivationAdditions K)) (hp : log'.Perm log)
    (s0 s' : KeychainIndex K D) (h0 : Reachable s0) (hd : AllDerivable s0) (hk : s0.keychains = s.keychains)
    (hf : ∀ k, s0.lastRevealedIndex k = none)
    (hcap : ∀ k d i, s.keychains.get k = some d → s.lastRevealedIndex k = some i → i ≤ cap d)
    (ha : applyAll s0 log' = some s') (k : K) : s'.lastRevealedIndex k = s.lastRevealedIndex k := by
  have hle : ∀ a ∈ log, ∀ k i, a.get k = some i → ∃ j, s.lastRevealedIndex k = some j ∧ i ≤ j := by
    intro a hm k i hi
    have h1 : s.lastRevealed = log.foldl DerivationAdditions.append OMap.empty := (runFrom_spec h).2.1
    unfold lastRevealedIndex
    rw [h1]
    have gen : ∀ (l : List (DerivationAdditions K)) (z : DerivationAdditions K), (∃ j, z.get k = some j ∧ i ≤ j) ∨ a ∈ l →
        ∃ j, (l.foldl DerivationAdditions.append z).get k = some j ∧ i ≤ j := by
      intro l
      induction l with
      | nil =>
        rintro z (h | h)
        · exact h
        · cases h
      | cons b l ih =>
        rintro z h
        apply ih
        rcases h with ⟨j, hj, hij⟩ | h
        · left
          rw [DerivationAdditions.get_append, hj]
          cases OMap.get b k with
          | none => exact ⟨j, rfl, hij⟩
          | some w => exact ⟨max j w, rfl, le_trans hij (le_max_left _ _)⟩
        · rcases List.mem_cons.1 h with rfl | h
          · left
            rw [DerivationAdditions.get_append, hi]
            cases OMap.get z k with
            | none => exact ⟨i, rfl, le_refl _⟩
            | some w => exact ⟨max w i, rfl, le_max_right _ _⟩
          · exact Or.inr h
    exact gen log OMap.empty (Or.inr hm)
  have hs' := applyAll_spec log' s0 s' ha (reachable_inv h0 hd) hd (by
    intro a hm k i hi d hkd
    obtain ⟨j, hj, hij⟩ := hle a (hp.mem_iff.1 hm) k i hi
    exact le_trans hij (hcap k d j (by rw [← hk]; exact hkd) hj))
  have hs0 : s0.lastRevealed = OMap.empty := OMap.ext_get fun k => hf k
  rw [C35_log_is_state ops s log h log' hp k]
  unfold lastRevealedIndex
  rw [hs', hs0]

example : ∃ s' log, (empty : KeychainIndex (Fin 3) DemoDesc).runFrom (exKcOps.take 3) = some (s', log) ∧
    (∃ s'', applyAll s' ((((empty : KeychainIndex (Fin 3) DemoDesc).runFrom exKcOps).map Prod.snd).getD []).reverse = some s'' ∧
      s''.lastRevealed.entries = [(0, 4), (1, 1), (2, 0)]) := by
  have h1 : ((empty : KeychainIndex (Fin 3) DemoDesc).runFrom (exKcOps.take 3)).isSome = true := by decide +kernel
  have h2 : ∀ r ∈ (empty : KeychainIndex (Fin 3) DemoDesc).runFrom (exKcOps.take 3),
    (applyAll r.1 ((((empty : KeychainIndex (Fin 3) DemoDesc).runFrom exKcOps).map Prod.snd).getD []).reverse).map
      (fun s => s.lastRevealed.entries) = some [(0, 4), (1, 1), (2, 0)] := by decide +kernel
  cases h : (empty : KeychainIndex (Fin 3) DemoDesc).runFrom (exKcOps.take 3) with
  | none => rw [h] at h1; cases h1
  | some r => exact ⟨r.1, r.2, rfl, Option.map_eq_some_iff.1 (h2 r h)⟩

/-! ## C36 -/

/-- **C36** with lookahead `n`, all scripts up to `n` past the last revealed one are stored (if derivable) -/
theorem C36_lookahead_stored {s : KeychainIndex K D} (h : Reachable s) (hd : AllDerivable s) (k : K) (d : D)
    (hk : s.keychains.get k = some d) (i : Nat) (h1 : i < numRevealed s k + s.lookaheadOf k) (h2 : i ≤ cap d) :
    stored s k i = spkAt d i := stored_of_range (reachable_inv h hd) hk h1 h2

/-- **C36** `scan` finds every output that pays to a script within the lookahead, under the right keychain and index, and then
that index is revealed -/
theorem C36_scan_finds {s : KeychainIndex K D} (h : Reachable s) (hd : AllDerivable s) (l : List (OutPoint × TxOut))
    (hl : (l.map Prod.fst).Nodup) (r) (hr : s.scan l = some r) (o : OutPoint) (x : TxOut) (hm : (o, x) ∈ l)
    (k : K) (d : D) (hk : s.keychains.get k = some d) (i : Nat) (h1 : i < numRevealed s k + s.lookaheadOf k) (h2 : i ≤ cap d)
    (hx : spkAt d i = some x.spk) :
    r.1.inner.txout o = some (toLex (k, i), x) ∧ ∃ j, r.1.lastRevealedIndex k = some j ∧ i ≤ j := by
  obtain ⟨a1, a2⟩ := scan_finds hr (reachable_inv h hd) hd hl hm hk h1 h2 hx
  refine ⟨a1, ?_⟩
  unfold numRevealed at a2
  cases hl : r.1.lastRevealedIndex k with
  | none => rw [hl] at a2; simp at a2
  | some j => rw [hl] at a2; simp only [] at a2; exact ⟨j, rfl, by omega⟩

/-- **C36** after the scan the lookahead is again in place, past the newly revealed index: `scan` never leaves a gap -/
theorem C36_scan_replenishes {s : KeychainIndex K D} (h : Reachable s) (hd : AllDerivable s) (l : List (OutPoint × TxOut)) (r)
    (hr : s.scan l = some r) (k : K) (d : D) (hk : s.keychains.get k = some d) (i : Nat)
    (h1 : i < numRevealed r.1 k + s.lookaheadOf k) (h2 : i ≤ cap d) : stored r.1 k i = spkAt d i := by
  have hu := scan_upd hr
  obtain ⟨b1, b2, -, -⟩ := scan_keeps hr (reachable_inv h hd) hd
  refine stored_of_range (hu.inv hd (reachable_inv h hd)) (by rw [b1]; exact hk) ?_ h2
  have : r.1.lookaheadOf k = s.lookaheadOf k := by unfold lookaheadOf; rw [b2]
  rw [this]; exact h1

/-- **C36** an output that pays to a script further away is not found (that is the meaning of the gap limit): the index only
finds stored scripts -/
theorem C36_scan_txout_only_stored {s : KeychainIndex K D} (h : Reachable s) (hd : AllDerivable s) (o : OutPoint) (x : TxOut) (r)
    (hr : s.scanTxout o x = some r) (hx : ∀ k i, stored s k i ≠ some x.spk) : r.1 = s ∧ r.2 = OMap.empty := by
  unfold scanTxout at hr
  simp only [] at hr
  cases hg : s.inner.spkIndices.get x.spk with
  | none => rw [SpkIndex.scanTxout_none hg] at hr; cases hr; exact ⟨rfl, rfl⟩
  | some ki => exact absurd (((reachable_inv h hd).hist.spk_iff ki _).2 hg) (hx (ofLex ki).1 (ofLex ki).2)

/-- **C36** `lookahead_to_target` when nothing is stored past the last revealed script: everything below the target is stored
afterwards, the lookahead setting is kept and nothing is revealed -/
theorem C36_lookahead_to_target_none_stored {s s' : KeychainIndex K D} (h : Reachable s) (hd : AllDerivable s) (k : K) (t : Nat)
    (hs : s.lookaheadToTarget k t = some s') (d : D) (hk : s.keychains.get k = some d)
    (hnone : stored s k (numRevealed s k) = none) (i : Nat) (hi : i < t) (hc : i ≤ cap d) (hnr : numRevealed s k ≤ cap d) :
    stored s' k i = spkAt d i ∧ s'.lastRevealed = s.lastRevealed ∧ s'.lookahead = s.lookahead := by
  have hinv := reachable_inv h hd
  obtain ⟨-, a2, -, a4, a5⟩ := lookaheadToTarget_inv hs hinv hd
  obtain ⟨n, hcn⟩ := hinv.contig k d hk
  have := a5 d n hk hcn (nextStoreIndex_eq hcn (hd k d hk))
  have hn : n = numRevealed s k := by
    have h1 := hcn.1 (numRevealed s k)
    have h2 := hcn.2.2
    have h0 : s.inner.spks.get (toLex (k, numRevealed s k)) = none := hnone
    rw [h0] at h1
    by_cases hlt : numRevealed s k < n
    · rw [if_pos hlt] at h1
      exact absurd h1.symm (hd k d hk _ hnr)
    · omega
  refine ⟨?_, a4, a2⟩
  show s'.inner.spks.get _ = _
  rw [this.1 i]
  by_cases hlt : n < t
  · rw [if_pos hlt, if_pos (by omega)]
  · rw [if_neg hlt, if_pos (by omega)]

/-- **C36** what `lookahead_to_target` does in general: if `n` scripts are stored and `n < t`, then `numRevealed + (t - n)` are
stored afterwards (never fewer than before, never more than derivable); the target is reached only if `n = numRevealed` -/
theorem C36_lookahead_to_target_exact {s s' : KeychainIndex K D} (h : Reachable s) (hd : AllDerivable s) (k : K) (t : Nat)
    (hs : s.lookaheadToTarget k t = some s') (d : D) (hk : s.keychains.get k = some d) (n : Nat) (hn : n ≤ cap d + 1)
    (hst : ∀ i, stored s k i = if i < n then spkAt d i else none) (i : Nat) :
    stored s' k i = if i < (if n < t then max n (min (numRevealed s k + (t - n)) (cap d + 1)) else n) then spkAt d i else none := by
  have hinv := reachable_inv h hd
  obtain ⟨-, -, -, -, a5⟩ := lookaheadToTarget_inv hs hinv hd
  obtain ⟨m, hcm⟩ := hinv.contig k d hk
  have hdd := hd k d hk
  have hmn : m = n := by
    have e : ∀ i, (if i < m then spkAt d i else none) = if i < n then spkAt d i else none :=
      fun i => (hcm.1 i).symm.trans (hst i)
    rcases lt_trichotomy m n with h1 | h1 | h1
    · have := e m
      rw [if_neg (lt_irrefl _), if_pos h1] at this
      exact absurd this.symm (hdd m (by omega))
    · exact h1
    · have := e n
      rw [if_pos h1, if_neg (lt_irrefl _)] at this
      exact absurd this (hdd n (by have := hcm.2.1; omega))
  subst hmn
  exact (a5 d m hk hcm (nextStoreIndex_eq hcm hdd)).1 i

/-- **C36** but if some lookahead is already stored, `lookahead_to_target` does not reach its target: with a lookahead of 10 and
nothing revealed, after `lookahead_to_target(k, 15)` index 14 is not stored -/
theorem C36_lookahead_to_target_misses : ∃ s log, (empty : KeychainIndex (Fin 3) DemoDesc).runFrom (bigOps 10) = some (s, log) ∧
    ∃ s', s.lookaheadToTarget 0 15 = some s' ∧ stored s' 0 9 = some 36 ∧ stored s' 0 10 = none ∧ stored s' 0 14 = none := by
  have h1 : ((empty : KeychainIndex (Fin 3) DemoDesc).runFrom (bigOps 10)).isSome = true := by decide +kernel
  have h2 : ∀ r ∈ (empty : KeychainIndex (Fin 3) DemoDesc).runFrom (bigOps 10), (r.1.lookaheadToTarget 0 15).isSome = true ∧
    ∀ s' ∈ r.1.lookaheadToTarget 0 15, stored s' 0 9 = some 36 ∧ stored s' 0 10 = none ∧ stored s' 0 14 = none := by
    decide +kernel
  cases h : (empty : KeychainIndex (Fin 3) DemoDesc).runFrom (bigOps 10) with
  | none => rw [h] at h1; cases h1
  | some r =>
    obtain ⟨h3, h4⟩ := h2 r h
    cases h5 : r.1.lookaheadToTarget 0 15 with
    | none => rw [h5] at h3; cases h3
    | some s' => exact ⟨r.1, r.2, rfl, s', h5, h4 s' h5⟩

/-- the scan of an output to index 6, two past the last revealed one -/
example : ∃ r, exKc.scan [(⟨dId 3, 0⟩, ⟨9, 24⟩)] = some r ∧ r.1.lastRevealedIndex 0 = some 6 ∧ stored r.1 0 8 = some 32 ∧
    (6 < numRevealed exKc 0 + exKc.lookaheadOf 0) := by
  have h1 : (exKc.scan [(⟨dId 3, 0⟩, ⟨9, 24⟩)]).isSome = true := by decide +kernel
  have h2 : ∀ r ∈ exKc.scan [(⟨dId 3, 0⟩, ⟨9, 24⟩)], r.1.lastRevealedIndex 0 = some 6 ∧ stored r.1 0 8 = some 32 ∧
    (6 < numRevealed exKc 0 + exKc.lookaheadOf 0) := by decide +kernel
  cases h : exKc.scan [(⟨dId 3, 0⟩, ⟨9, 24⟩)] with
  | none => rw [h] at h1; cases h1
  | some r => exact ⟨r, rfl, h2 r h⟩

/-! ## C37 -/

/-- revealed and not used -/
def RevealedUnused (s : KeychainIndex K D) (k : K) (i : Nat) : Prop := i < numRevealed s k ∧ s.inner.isUsed (toLex (k, i)) = false

/-- **C37** if a revealed script is unused, `next_unused_spk` returns the one with the lowest index and changes nothing -/
theorem C37_next_unused_lowest {s : KeychainIndex K D} (h : Reachable s) (hd : AllDerivable s) (k : K) (r)
    (hr : s.nextUnusedSpk k = some r) (hu : ∃ i, RevealedUnused s k i) :
    RevealedUnused s k r.2.1.1 ∧ (∀ i, RevealedUnused s k i → r.2.1.1 ≤ i) ∧ stored s k r.2.1.1 = some r.2.1.2 ∧
    r.1 = s ∧ r.2.2 = OMap.empty := by
  obtain ⟨l, hl, hcase⟩ := nextUnused_spec hr
  obtain ⟨hm, hp⟩ := unusedSpks_spec hl
  have hiff : ∀ i, RevealedUnused s k i ↔ ∃ o, (i, o) ∈ l := by
    intro i
    unfold RevealedUnused SpkIndex.isUsed
    constructor
    · rintro ⟨h1, h2⟩; exact ⟨_, (hm i _).2 ⟨by simpa using h2, h1, rfl⟩⟩
    · rintro ⟨o, ho⟩; obtain ⟨h1, h2, -⟩ := (hm i o).1 ho; exact ⟨h2, by simp [h1]⟩
  rcases hcase with ⟨rfl, -⟩ | ⟨l', rfl, e1, e2⟩
  · obtain ⟨i, hi⟩ := hu
    obtain ⟨o, ho⟩ := (hiff i).1 hi
    cases ho
  · refine ⟨(hiff _).2 ⟨_, List.mem_cons_self ..⟩, ?_, ((hm _ _).1 (List.mem_cons_self ..)).2.2.symm, e1, e2⟩
    intro i hi
    obtain ⟨o, ho⟩ := (hiff i).1 hi
    rcases List.mem_cons.1 ho with he | he
    · cases he; exact le_refl _
    · exact le_of_lt ((List.pairwise_cons.1 hp).1 _ he)

/-- **C37** if all revealed scripts are used, `next_unused_spk` does exactly what `reveal_next_spk` does -/
theorem C37_next_unused_reveals {s : KeychainIndex K D} (k : K) (r)
    (hr : s.nextUnusedSpk k = some r) (hu : ¬ ∃ i, RevealedUnused s k i) : s.revealNextSpk k = some r := by
  obtain ⟨l, hl, hcase⟩ := nextUnused_spec hr
  obtain ⟨hm, -⟩ := unusedSpks_spec hl
  rcases hcase with ⟨-, h⟩ | ⟨l', rfl, -, -⟩
  · exact h
  · obtain ⟨h1, h2, -⟩ := (hm _ _).1 (List.mem_cons_self ..)
    exact absurd ⟨_, h2, by unfold SpkIndex.isUsed; simp [h1]⟩ hu

/-- **C37** an index with a found output is used, whatever was called before (in particular `unmark_used`) -/
theorem C37_found_is_used {s : KeychainIndex K D} (h : Reachable s) (hd : AllDerivable s) (o : OutPoint) (k : K) (i : Nat) (x : TxOut)
    (hx : s.inner.txout o = some (toLex (k, i), x)) : s.inner.isUsed (toLex (k, i)) = true := by
  unfold SpkIndex.isUsed
  rw [found_used (reachable_inv h hd) hx]; rfl

/-- **C37** `unmark_used` on an index with a found output returns `false` and changes nothing -/
theorem C37_unmark_found {s : KeychainIndex K D} (h : Reachable s) (hd : AllDerivable s) (o : OutPoint) (k : K) (i : Nat) (x : TxOut)
    (hx : s.inner.txout o = some (toLex (k, i), x)) : (s.unmarkUsed k i).2 = false ∧ (s.unmarkUsed k i).1 = s := by
  have hout : s.inner.hasOutputs (toLex (k, i)) = true := by
    rw [SpkIndex.hasOutputs_iff]
    obtain ⟨hh, he, -⟩ := (reachable_inv h hd).hist
    rw [he] at hx ⊢
    obtain ⟨h1, h2, e1, e2, -⟩ := (SpkIndex.run_txouts hh o _ x).1 hx
    exact ⟨o, (SpkIndex.run_spkTxouts hh o _).2 ⟨x, h1, h2, e1, e2⟩⟩
  unfold unmarkUsed SpkIndex.unmarkUsed
  by_cases hc : (!s.inner.spks.contains (toLex (k, i))) = true
  · rw [if_pos hc]; exact ⟨rfl, rfl⟩
  · rw [if_neg hc, if_pos hout]; exact ⟨rfl, rfl⟩

/-- **C37** a script handed out by `reserve_next_unused_spk` is not handed out again by the next call, unless the keychain is
exhausted -/
theorem C37_reserve_distinct {s : KeychainIndex K D} (h : Reachable s) (hd : AllDerivable s) (k : K) (d : D)
    (hk : s.keychains.get k = some d) (r1 r2) (h1 : s.reserveNextUnusedSpk k = some r1) (h2 : r1.1.reserveNextUnusedSpk k = some r2)
    (hc : numRevealed r1.1 k ≤ cap d) : r1.2.1.1 ≠ r2.2.1.1 := by
  obtain ⟨q1, a1, a2, a3, -, -⟩ := reserveUnused_spec h1
  obtain ⟨q2, b1, -, b3, -, -⟩ := reserveUnused_spec h2
  have hreach : Reachable r1.1 := Reachable.step (op := .reserveNextUnusedSpk k) (r := (r1.1, r1.2.2)) h (by
    simp only [step]; rw [h1]; rfl)
  have hu1 : Upd s q1.1 q1.2.2 := nextUnused_upd a1
  have hkc : r1.1.keychains = s.keychains := by rw [a2]; exact hu1.kc
  have hd1 : AllDerivable r1.1 := AllDerivable_congr hkc hd
  have hused : r1.1.inner.unused.mem (toLex (k, r1.2.1.1)) = false := by
    rw [a2, a3]
    show (q1.1.inner.unused.remove (toLex (k, q1.2.1.1))).mem _ = false
    rw [OSet.mem_remove]; simp
  have hq1 : q1.2.1.1 < numRevealed q1.1 k := by
    by_cases hex : ∃ i, RevealedUnused s k i
    · obtain ⟨c1, -, -, c4, -⟩ := C37_next_unused_lowest h hd k q1 a1 hex
      rw [c4]; exact c1.1
    · have := C37_next_unused_reveals k q1 a1 hex
      obtain ⟨c1, -, c3, -⟩ := C34_reveal_next_spk h hd k q1 this d hk
      unfold numRevealed
      rw [c3, c1]; exact Nat.lt_succ_self _
  have hnr : numRevealed r1.1 k = numRevealed q1.1 k := by rw [a2]; rfl
  rw [b3]
  by_cases hex : ∃ i, RevealedUnused r1.1 k i
  · obtain ⟨c1, -⟩ := C37_next_unused_lowest hreach hd1 k q2 b1 hex
    intro he
    have := c1.2
    unfold SpkIndex.isUsed at this
    rw [← he, hused] at this
    cases this
  · have := C37_next_unused_reveals k q2 b1 hex
    obtain ⟨c1, -⟩ := C34_reveal_next_spk hreach hd1 k q2 this d (by rw [hkc]; exact hk)
    rw [c1, min_eq_left hc, hnr, a3]
    omega

example : (∃ i, RevealedUnused exKc 0 i) ∧ (∃ i, RevealedUnused exKc 1 i) ∧
    (exKc.nextUnusedSpk 0).map (fun r => r.2.1) = some (1, 4) ∧ (exKc.nextUnusedSpk 1).map (fun r => r.2.1) = some (1, 5) :=
  ⟨⟨1, by unfold RevealedUnused; decide +kernel⟩, ⟨1, by unfold RevealedUnused; decide +kernel⟩, by decide +kernel, by decide +kernel⟩

/-! ## C38 -/

/-- **C38** the constant in the code is `2^30`, not the largest non-hardened index `2^31 - 1` -/
theorem C38_max_index_value : bip32MaxIndex = 2 ^ 30 ∧ bip32MaxIndex < 2 ^ 31 - 1 := by decide

/-- **C38** no stored index exceeds the bound, so in particular none is hardened -/
theorem C38_stored_bound {s : KeychainIndex K D} (h : Reachable s) (hd : AllDerivable s) (k : K) (i : Nat) (spk : Script)
    (hs : stored s k i = some spk) : i ≤ bip32MaxIndex ∧ i < 2 ^ 31 := by
  obtain ⟨d, -, hc, -⟩ := stored_known (reachable_inv h hd) hs
  have h1 := le_trans hc (cap_le d)
  have : bip32MaxIndex < 2 ^ 31 := by decide
  exact ⟨h1, by omega⟩

/-- the caller asks only for targets up to the bound -/
def TargetsOk : KeychainIndex.Op K D → Prop
  | .revealToTarget _ n => n ≤ bip32MaxIndex
  | .revealToTargetMulti m => ∀ k i, m.get k = some i → i ≤ bip32MaxIndex
  | .applyAdditions m => ∀ k i, m.get k = some i → i ≤ bip32MaxIndex
  | _ => True

theorem step_lrOk {s : KeychainIndex K D} {op : KeychainIndex.Op K D} {r} (hr : s.step op = some r) (ht : TargetsOk op) (hi : Inv s)
    (hd : AllDerivable s) (hs : LrOk s) : LrOk r.1 := by
  cases op with
  | addKeychain k d =>
    simp only [step, Option.map_eq_some_iff] at hr
    obtain ⟨s', h1, rfl⟩ := hr
    intro k i hg
    rw [(addKeychain_inv h1).2.1] at hg
    exact hs k i hg
  | setLookahead k n =>
    simp only [step, Option.map_eq_some_iff] at hr
    obtain ⟨s', h1, rfl⟩ := hr
    exact (setLookahead_upd h1).lrOk hs
  | setLookaheadForAll n =>
    simp only [step, Option.map_eq_some_iff] at hr
    obtain ⟨s', h1, rfl⟩ := hr
    exact (foldlM_upd (fun (s : KeychainIndex K D) (k : K) => s.setLookahead k n) (fun s a s' h => setLookahead_upd h) _ _ _ h1).lrOk hs
  | lookaheadToTarget k n =>
    simp only [step, Option.map_eq_some_iff] at hr
    obtain ⟨s', h1, rfl⟩ := hr
    exact (lookaheadToTarget_upd h1).lrOk hs
  | lookaheadToTargetMulti m =>
    simp only [step, Option.map_eq_some_iff] at hr
    obtain ⟨s', h1, rfl⟩ := hr
    exact (foldlM_upd (fun (s : KeychainIndex K D) (e : K × Nat) => s.lookaheadToTarget e.1 e.2) (fun s a s' h => lookaheadToTarget_upd h) _ _ _ h1).lrOk hs
  | revealToTarget k n =>
    simp only [step, Option.map_eq_some_iff] at hr
    obtain ⟨r', h1, rfl⟩ := hr
    exact reveal_lrOk h1 hi hd ht hs
  | revealToTargetMulti m =>
    simp only [step, Option.map_eq_some_iff] at hr
    obtain ⟨r', h1, rfl⟩ := hr
    exact revealMulti_lrOk h1 hi hd hs ht
  | revealNextSpk k =>
    simp only [step, Option.map_eq_some_iff] at hr
    obtain ⟨r', h1, rfl⟩ := hr
    exact revealNext_lrOk h1 hi hd hs
  | revealAndReserveNextSpk k =>
    simp only [step, Option.map_eq_some_iff] at hr
    obtain ⟨r', h1, rfl⟩ := hr
    obtain ⟨q, h2, h3, -⟩ := revealReserve_spec h1
    show LrOk r'.1
    rw [h3]
    exact (markUsed_upd _ _ _).lrOk (revealNext_lrOk h2 hi hd hs)
  | nextUnusedSpk k =>
    simp only [step, Option.map_eq_some_iff] at hr
    obtain ⟨r', h1, rfl⟩ := hr
    exact nextUnused_lrOk h1 hi hd hs
  | reserveNextUnusedSpk k =>
    simp only [step, Option.map_eq_some_iff] at hr
    obtain ⟨r', h1, rfl⟩ := hr
    obtain ⟨q, h2, h3, -⟩ := reserveUnused_spec h1
    show LrOk r'.1
    rw [h3]
    exact (markUsed_upd _ _ _).lrOk (nextUnused_lrOk h2 hi hd hs)
  | markUsed k i => simp only [step] at hr; cases hr; exact hs
  | unmarkUsed k i => simp only [step] at hr; cases hr; exact hs
  | scanTxout o x => simp only [step] at hr; exact scanTxout_lrOk hr hi hd hs
  | scan l => simp only [step] at hr; exact scan_lrOk hr hi hd hs
  | applyAdditions m =>
    simp only [step, Option.map_eq_some_iff] at hr
    obtain ⟨r', h1, rfl⟩ := hr
    exact revealMulti_lrOk h1 hi hd hs ht

/-- **C38** if the caller never asks to reveal an index above the bound, no revealed index ever exceeds it -/
theorem C38_revealed_bound (ops : List (KeychainIndex.Op K D)) (hops : ∀ op ∈ ops, TargetsOk op) (s : KeychainIndex K D) (log)
    (h : (empty : KeychainIndex K D).runFrom ops = some (s, log)) (hd : AllDerivable s) (k : K) (i : Nat)
    (hl : s.lastRevealedIndex k = some i) : i ≤ bip32MaxIndex := by
  have gen : ∀ (ops : List (KeychainIndex.Op K D)) (s0 : KeychainIndex K D) r, (∀ op ∈ ops, TargetsOk op) →
      s0.runFrom ops = some r → AllDerivable r.1 → Inv s0 → LrOk s0 → LrOk r.1 := by
    intro ops
    induction ops with
    | nil => intro s0 r _ h _ _ hs; cases h; exact hs
    | cons op ops ih =>
      intro s0 r hops h hd hi hs
      unfold runFrom at h
      cases h1 : s0.step op with
      | none => rw [h1] at h; cases h
      | some r1 =>
        rw [h1] at h
        simp only [Option.bind_eq_bind, Option.bind_some] at h
        cases h2 : r1.1.runFrom ops with
        | none => rw [h2] at h; cases h
        | some r2 =>
          rw [h2] at h
          cases h
          have hd1 : AllDerivable r1.1 := fun k d hk => hd k d ((runFrom_spec h2).1 k d hk)
          have hd0 : AllDerivable s0 := fun k d hk => hd1 k d ((step_spec h1).1 k d hk)
          exact ih r1.1 r2 (fun o ho => hops o (List.mem_cons_of_mem _ ho)) h2 hd ((step_spec h1).2.2 hd0 hi)
            (step_lrOk h1 (hops op (List.mem_cons_self ..)) hi hd0 hs)
  exact gen ops empty (s, log) hops h hd inv_empty (fun k i h => by cases h) k i hl

/-- **C38** without that precondition it fails: with a lookahead past the bound, `reveal_to_target` reveals an index above the
bound, and then `next_index` (hence `reveal_next_spk`) panics -/
theorem C38_reveal_beyond_bound : ∃ s log r,
    (empty : KeychainIndex (Fin 3) DemoDesc).runFrom (bigOps (bip32MaxIndex + 10)) = some (s, log) ∧
    s.revealToTarget 0 (bip32MaxIndex + 5) = some r ∧ r.1.lastRevealedIndex 0 = some (bip32MaxIndex + 5) ∧
    r.1.nextIndex 0 = none ∧ r.1.revealNextSpk 0 = none := by
  obtain ⟨s, log, h1, h2, h3, h4⟩ := bigOps_ok (bip32MaxIndex + 10) (by decide +kernel)
  have hr : Reachable s := ⟨_, _, h1⟩
  have hi := reachable_inv hr (demo_allDerivable s)
  have hn0 : numRevealed s 0 = 0 := by unfold numRevealed lastRevealedIndex; rw [h3]; rfl
  have hk : s.keychains.get 0 = some ⟨true, 0⟩ := by rw [h2]; decide +kernel
  obtain ⟨r, hr⟩ := reveal_ok (t := bip32MaxIndex + 5) hi (demo_allDerivable s)
    (demo_noCollision (by unfold DemoBases; rw [h2]; decide +kernel)) hk
    (by rw [hn0, h4]; decide +kernel) (by rw [h4]; decide +kernel) (by decide +kernel)
  obtain ⟨d, n, n', hk', -, -, -, -, hkc, -, -, -, -, -, hlr⟩ := reveal_main hr hi (demo_allDerivable s)
  rw [hk] at hk'
  cases hk'
  have hnew : newRevealed s 0 (⟨true, 0⟩ : DemoDesc) (bip32MaxIndex + 5) = some (bip32MaxIndex + 5) := by
    unfold newRevealed
    rw [hn0, h4]; decide +kernel
  rw [hnew] at hlr
  have hl : r.1.lastRevealed.get 0 = some (bip32MaxIndex + 5) := by rw [hlr.1, OMap.get_insert_self]
  have hni : r.1.nextIndex 0 = none := by
    unfold nextIndex
    rw [hkc, hk, hl]
    decide +kernel
  refine ⟨s, log, r, h1, hr, hl, hni, ?_⟩
  unfold revealNextSpk
  rw [hni]; rfl

example : (∀ op ∈ exKcOps, TargetsOk op) ∧ exKc.lastRevealedIndex 0 = some 4 := by
  constructor
  · intro op h
    simp only [exKcOps, List.mem_cons, List.not_mem_nil, or_false] at h
    rcases h with rfl | rfl | rfl | rfl | rfl | rfl | rfl | rfl | rfl | rfl | rfl <;> simp [TargetsOk, bip32MaxIndex]
  · decide +kernel

end Verif.Props
