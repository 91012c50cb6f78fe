import Verif.Lemmas.MachineIndex2

/-!
# Lemmas: `reveal_to_target` in a release build; the arithmetic on heights
-/

namespace Verif
open Verif Verif.Spec

namespace KeychainIndex
variable {K D : Type} [LinearOrder K] [DescriptorOps D]

theorem nextRevealM_small (b : Build) {s : KeychainIndex K D} {k : K} (h : numRevealed s k ≤ u32Max) :
    s.nextRevealIndexM b k = some (numRevealed s k) := by
  unfold nextRevealIndexM numRevealed lastRevealedIndex at *
  cases hl : s.lastRevealed.get k with
  | none => rfl
  | some v => rw [hl] at h; exact add32_small b h

theorem nextRevealM_release (s : KeychainIndex K D) (k : K) : ∃ n, s.nextRevealIndexM .release k = some n := by
  unfold nextRevealIndexM
  cases s.lastRevealed.get k with
  | none => exact ⟨0, rfl⟩
  | some v => exact ⟨_, add32_release v 1⟩

theorem replenishM_release {s : KeychainIndex K D} {k : K} {d : D} (hk : s.keychains.get k = some d) :
    ∃ s', s.replenishLookaheadM .release k = some s' ∧ s'.keychains = s.keychains := by
  obtain ⟨n, hn⟩ := nextRevealM_release s k
  obtain ⟨x, hx⟩ := storeM_release s.inner k 0 (rangeDescriptorSpks d (rangeEx (s.nextStoreIndex k) (wrap32 (n + s.lookaheadOf k))))
  refine ⟨{ s with inner := x }, ?_, rfl⟩
  unfold replenishLookaheadM
  exact Option.bind_eq_some_iff.2 ⟨d, hk, Option.bind_eq_some_iff.2 ⟨n, hn, Option.bind_eq_some_iff.2
    ⟨_, add32_release _ _, Option.bind_eq_some_iff.2 ⟨x, hx, rfl⟩⟩⟩⟩

theorem lookaheadToTargetM_release {s : KeychainIndex K D} {k : K} {d : D} (hk : s.keychains.get k = some d) (t : Nat) :
    ∃ s', s.lookaheadToTargetM .release k t = some s' ∧ s'.keychains = s.keychains := by
  unfold lookaheadToTargetM
  simp only []
  by_cases h : s.nextStoreIndex k < t
  · rw [if_pos h]
    obtain ⟨s', h1, h2⟩ := replenishM_release (s := { s with lookahead := s.lookahead.insert k (t - s.nextStoreIndex k) }) hk
    unfold setLookaheadM
    rw [h1]
    exact ⟨_, rfl, h2⟩
  · rw [if_neg h]; exact ⟨s, rfl, rfl⟩

/-- `reveal_to_target` in a release build, step by step -/
theorem revealM_release {s : KeychainIndex K D} {k : K} {d : D} (hk : s.keychains.get k = some d) (t : Nat) :
    ∃ nr x', s.nextRevealIndexM .release k = some nr ∧
      storeSpksM .release s.inner k (s.nextStoreIndex k) (rangeDescriptorSpks d (rangeIn (wrap32 (nr + s.lookaheadOf k))
        (wrap32 ((if hasWildcard d then t else 0) + s.lookaheadOf k)))) = some x' ∧
      s.revealToTargetM .release k t = some (match revealedIndexM nr (wrap32 (nr + s.lookaheadOf k)) (if hasWildcard d then t else 0)
          (rangeDescriptorSpks d (rangeIn (wrap32 (nr + s.lookaheadOf k))
          (wrap32 ((if hasWildcard d then t else 0) + s.lookaheadOf k)))) with
        | some i => ({ s with inner := x', lastRevealed := s.lastRevealed.insert k i },
            rangeDescriptorSpks d (rangeEx nr (wrap32 (i + 1))), OMap.empty.insert k i)
        | none => ({ s with inner := x' }, [], OMap.empty)) := by
  obtain ⟨nr, hn⟩ := nextRevealM_release s k
  obtain ⟨x, hx⟩ := storeM_release s.inner k (s.nextStoreIndex k) (rangeDescriptorSpks d (rangeIn (wrap32 (nr + s.lookaheadOf k))
        (wrap32 ((if hasWildcard d then t else 0) + s.lookaheadOf k))))
  refine ⟨nr, x, hn, hx, ?_⟩
  unfold revealToTargetM
  refine Option.bind_eq_some_iff.2 ⟨d, hk, Option.bind_eq_some_iff.2 ⟨nr, hn, Option.bind_eq_some_iff.2
    ⟨_, add32_release _ _, Option.bind_eq_some_iff.2 ⟨_, add32_release _ _, Option.bind_eq_some_iff.2 ⟨x, hx, ?_⟩⟩⟩⟩⟩
  generalize revealedIndexM nr (wrap32 (nr + s.lookaheadOf k)) (if hasWildcard d then t else 0)
          (rangeDescriptorSpks d (rangeIn (wrap32 (nr + s.lookaheadOf k))
          (wrap32 ((if hasWildcard d then t else 0) + s.lookaheadOf k)))) = ri
  cases ri with
  | none => simp [rangeEx, derive_nil]
  | some i =>
    simp only [Build.assert, if_true]
    exact Option.bind_eq_some_iff.2 ⟨_, add32_release _ _, rfl⟩

/-- what `reveal_to_target` returns in a release build when the sum with the lookahead fits -/
theorem revealM_fits {s : KeychainIndex K D} {k : K} {d : D} (hk : s.keychains.get k = some d) (hd : Derivable d) {t : Nat}
    (h1 : numRevealed s k + s.lookaheadOf k ≤ u32Max) (h2 : (if hasWildcard d then t else 0) + s.lookaheadOf k ≤ u32Max) :
    ∃ x', s.revealToTargetM .release k t = some (match newRevealed s k d t with
        | some i => ({ s with inner := x', lastRevealed := s.lastRevealed.insert k i },
            rangeDescriptorSpks d (rangeEx (numRevealed s k) (i + 1)), OMap.empty.insert k i)
        | none => ({ s with inner := x' }, [], OMap.empty)) := by
  obtain ⟨nr, x, hn, -, h⟩ := revealM_release hk t
  rw [nextRevealM_small .release (by omega)] at hn
  cases hn
  refine ⟨x, ?_⟩
  have hu : u32Max = 4294967295 := rfl
  rw [wrap32_small h1, wrap32_small h2] at h
  have e : revealedIndexM (numRevealed s k) (numRevealed s k + s.lookaheadOf k) (if hasWildcard d then t else 0)
          (rangeDescriptorSpks d (rangeIn (numRevealed s k + s.lookaheadOf k)
          ((if hasWildcard d then t else 0) + s.lookaheadOf k))) = newRevealed s k d t := revealedIndex_eq s k d hd t
  rw [e] at h
  rw [h]
  cases hi : newRevealed s k d t with
  | none => rfl
  | some i =>
    have hb : i + 1 ≤ u32Max := by
      have hc := cap_le d
      have hb : bip32MaxIndex = 1073741824 := rfl
      unfold newRevealed at hi
      simp only [] at hi
      generalize (if hasWildcard d then t else 0) = t' at *
      split_ifs at hi
      all_goals (have := Option.some.inj hi; omega)
    simp only []
    rw [wrap32_small (by omega)]

/-- … and when `target_index + lookahead` wraps around -/
theorem revealM_wraps {s : KeychainIndex K D} {k : K} {d : D} (hk : s.keychains.get k = some d) {t : Nat} (ht : t ≤ u32Max)
    (hw : hasWildcard d = true) (h1 : numRevealed s k + s.lookaheadOf k ≤ u32Max) (h2 : u32Max < t + s.lookaheadOf k) :
    s.revealToTargetM .release k t = some (if numRevealed s k ≤ t ∧ t < numRevealed s k + s.lookaheadOf k then
        ({ s with lastRevealed := s.lastRevealed.insert k t },
            rangeDescriptorSpks d (rangeEx (numRevealed s k) (t + 1)), OMap.empty.insert k t)
        else (s, [], OMap.empty)) := by
  obtain ⟨nr, x, hn, hx, h⟩ := revealM_release hk t
  rw [nextRevealM_small .release (by omega)] at hn
  cases hn
  have hu : u32Max = 4294967295 := rfl
  simp only [hw, if_true] at h hx
  have e1 := wrap32_small h1
  have e2 : rangeIn (numRevealed s k + s.lookaheadOf k) (wrap32 (t + s.lookaheadOf k)) = [] := by
    unfold rangeIn
    have hov := wrap32_over h2 (by omega)
    have : wrap32 (t + s.lookaheadOf k) + 1 - (numRevealed s k + s.lookaheadOf k) = 0 := by omega
    rw [this]; rfl
  rw [e1, e2, derive_nil] at h hx
  cases hx
  rw [h]
  unfold revealedIndexM
  simp only [List.foldl_nil]
  by_cases hc : numRevealed s k ≤ t ∧ t < numRevealed s k + s.lookaheadOf k
  · rw [if_pos hc, if_pos hc]
    simp only []
    rw [wrap32_small (by omega)]
  · rw [if_neg hc, if_neg hc]

end KeychainIndex

namespace SparseChain
variable {P : Type} [LinearOrder P] [ChainPosition P]

theorem agreement_lt {self update : SparseChain P} {h : Nat} (ha : agreementPoint self update = some h)
    (hne : ¬ (lastUpdateCp update = none ∨ lastUpdateCp update = agreementPoint self update)) :
    ∃ h' ∈ update.checkpoints.keys, h < h' := by
  unfold agreementPoint at ha
  obtain ⟨e, he, rfl⟩ := Option.map_eq_some_iff.1 ha
  have hmem : e ∈ update.checkpoints.entries := by
    have := List.mem_of_find?_eq_some he
    exact List.mem_reverse.1 this
  by_contra hno
  simp only [not_exists, not_and, Nat.not_lt] at hno
  apply hne
  right
  have hag : agreementPoint self update = some e.1 := by unfold agreementPoint; rw [he]; rfl
  rw [hag]
  unfold lastUpdateCp
  have hl : update.checkpoints.last? = some (e.1, e.2) := by
    rw [OMap.last?_eq_some]
    exact ⟨OMap.mem_entries.1 hmem, fun k v hk => hno k (OMap.mem_keys.2 ⟨v, hk⟩)⟩
  rw [hl]; rfl
end SparseChain
end Verif
