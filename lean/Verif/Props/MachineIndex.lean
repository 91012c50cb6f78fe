import Verif.Lemmas.MachineIndex3
import Verif.Props.KeychainIndex
import Verif.Props.SparseChain

/-!
# C71: derivation indices and heights on machine integers, debug and release builds
-/

namespace Verif.Props
open Verif Verif.Spec KeychainIndex

variable {K D : Type} [LinearOrder K] [DescriptorOps D] [DecidableEq D]

/-- **C71** the theorems about the keychain index are about a debug build: with overflow checks and `debug_assert!`s -/
theorem C71_debug (s : KeychainIndex K D) (ops : List (KeychainIndex.Op K D)) (k : K) :
    s.runFromM .debug ops = s.runFrom ops ∧
    s.revealedSpksOfKeychainM .debug k = s.revealedSpksOfKeychain k ∧
    s.unusedSpksOfKeychainM .debug k = s.unusedSpksOfKeychain k :=
  ⟨runM_debug ops s, revealedM_debug s k, unusedM_debug s k⟩

/-- **C71** and they hold of a release build wherever a debug build does not panic: any sequence of calls that a debug build
completes gives the same state and the same additions in a release build -/
theorem C71_release_same (s : KeychainIndex K D) (ops : List (KeychainIndex.Op K D)) (r) (h : s.runFrom ops = some r) :
    s.runFromM .release ops = some r :=
  runM_answers ops s r (by rw [runM_debug]; exact h)

/-- **C71** the same for what the calls return and for the listings -/
theorem C71_release_same_returns (s : KeychainIndex K D) (k : K) (t : Nat) :
    (∀ r, s.revealToTarget k t = some r → s.revealToTargetM .release k t = some r) ∧
    (∀ m r, s.revealToTargetMulti m = some r → s.revealToTargetMultiM .release m = some r) ∧
    (∀ r, s.revealNextSpk k = some r → s.revealNextSpkM .release k = some r) ∧
    (∀ r, s.nextUnusedSpk k = some r → s.nextUnusedSpkM .release k = some r) ∧
    (∀ r, s.revealAndReserveNextSpk k = some r → s.revealAndReserveNextSpkM .release k = some r) ∧
    (∀ r, s.reserveNextUnusedSpk k = some r → s.reserveNextUnusedSpkM .release k = some r) ∧
    (∀ r, s.revealedSpksOfKeychain k = some r → s.revealedSpksOfKeychainM .release k = some r) ∧
    (∀ r, s.unusedSpksOfKeychain k = some r → s.unusedSpksOfKeychainM .release k = some r) := by
  refine ⟨?_, ?_, ?_, ?_, ?_, ?_, ?_, ?_⟩
  · intro r h; exact revealM_answers s k t r (by rw [revealM_debug]; exact h)
  · intro m r h; exact revealMultiM_answers s m r (by rw [revealMultiM_debug]; exact h)
  · intro r h; exact revealNextM_answers s k r (by rw [revealNextM_debug]; exact h)
  · intro r h; exact nextUnusedM_answers s k r (by rw [nextUnusedM_debug]; exact h)
  · intro r h
    refine ((revealNextM_answers s k).bind fun x => Answers.refl _) r ?_
    rw [revealNextM_debug]; exact h
  · intro r h
    refine ((nextUnusedM_answers s k).bind fun x => Answers.refl _) r ?_
    rw [nextUnusedM_debug]; exact h
  · intro r h; exact revealedM_answers s k r (by rw [revealedM_debug]; exact h)
  · intro r h; exact unusedM_answers s k r (by rw [unusedM_debug]; exact h)

/-- **C71** with no script derived twice and the sums below `2^32`, both builds reveal the same and neither panics -/
theorem C71_builds_agree {s : KeychainIndex K D} (h : Reachable s) (hd : AllDerivable s) (hnc : NoCollision s) (k : K) (d : D)
    (hk : s.keychains.get k = some d) (t : Nat) (h1 : numRevealed s k + s.lookaheadOf k ≤ u32Max)
    (h2 : t + s.lookaheadOf k ≤ u32Max) (h3 : t < u32Max) :
    ∃ r, s.revealToTargetM .debug k t = some r ∧ s.revealToTargetM .release k t = some r := by
  obtain ⟨r, hr⟩ := (C33_no_panic h hd hnc k d hk).1 t h1 h2 h3
  exact ⟨r, by rw [revealM_debug]; exact hr, (C71_release_same_returns s k t).1 r hr⟩

/-- **C71** in every build, after any history that did not panic -- overflowing or not, with shared scripts or not --, a stored
script is the one the descriptor of its keychain derives at its index, and looking a script up finds it exactly where it is stored:
money is never attributed to a wrong index -/
theorem C71_attribution (b : Build) (ops : List (KeychainIndex.Op K D)) (s log) (h : (empty : KeychainIndex K D).runFromM b ops = some (s, log))
    (k : K) (i : Nat) (spk : Script) :
    (stored s k i = some spk → ∃ d, s.keychains.get k = some d ∧ spkAt d i = some spk ∧ i ≤ cap d) ∧
    (stored s k i = some spk ↔ s.inner.indexOfSpk spk = some (toLex (k, i))) := by
  have ho := (runM_later h).owned owned_empty
  exact ⟨ho.2 k i spk, ho.1.spk_iff _ _⟩

/-- **C71** the inner index is always one that `insert_spk`, `scan_txout`, `mark_used` and `unmark_used` build without giving an
index to two scripts, so what C30-C32 say of those holds in every build -/
theorem C71_inner_history (b : Build) (ops : List (KeychainIndex.Op K D)) (s log) (h : (empty : KeychainIndex K D).runFromM b ops = some (s, log)) :
    ∃ hist, s.inner = SpkIndex.run hist ∧ FreshIndices hist :=
  ((runM_later h).owned owned_empty).1

/-- **C71** the first keychain that stores a script owns it forever -/
theorem C71_first_owner (b : Build) (s s' : KeychainIndex K D) (ops : List (KeychainIndex.Op K D)) (log) (h : s.runFromM b ops = some (s', log))
    (spk : Script) (ki) (ho : s.inner.indexOfSpk spk = some ki) : s'.inner.indexOfSpk spk = some ki :=
  (runM_later h).owner spk ki ho

/-- **C71** a script that two keychains derive (for example because they have the same descriptor): once one of them has stored it,
it is never stored for the other, and revealing it there panics in both builds -/
theorem C71_shared_script (b : Build) (ops ops' : List (KeychainIndex.Op K D)) (s s' : KeychainIndex K D) (log log')
    (h : (empty : KeychainIndex K D).runFromM b ops = some (s, log)) (h' : s.runFromM b ops' = some (s', log'))
    (k k' : K) (i j : Nat) (d : D) (spk : Script) (hne : (k, i) ≠ (k', j))
    (hown : stored s k' j = some spk) (hk : s.keychains.get k = some d) (hd : spkAt d i = some spk) :
    stored s' k i = none ∧ s'.inner.indexOfSpk spk = some (toLex (k', j)) ∧
    (∀ new, s'.nextIndex k = some (i, new) → s'.revealNextSpkM b k = none) := by
  have e1 := runM_later h
  have e2 := runM_later h'
  have o1 := e1.owned owned_empty
  have o2 := e2.owned o1
  have hj : s.inner.indexOfSpk spk = some (toLex (k', j)) := (o1.1.spk_iff _ _).1 hown
  have key : ∀ s'' : KeychainIndex K D, Later s s'' → stored s'' k i = none := by
    intro s'' e
    have o := e.owned o1
    cases hs : stored s'' k i with
    | none => rfl
    | some p =>
      obtain ⟨d', h1, h2, -⟩ := o.2 k i p hs
      rw [e.kc k d hk] at h1; cases h1
      rw [hd] at h2; cases h2
      have h3 : s''.inner.spkIndices.get spk = some (toLex (k, i)) := (o.1.spk_iff _ _).1 hs
      have h4 := e.owner spk _ hj
      rw [h3] at h4
      exact absurd (toLex_inj.1 (Option.some.inj h4)) hne
  refine ⟨key s' e2, e2.owner spk _ hj, ?_⟩
  intro new hn
  unfold revealNextSpkM
  rw [hn]
  simp only [Option.bind_eq_bind, Option.bind_some]
  cases hr : s'.revealToTargetM b k i with
  | none => rfl
  | some r =>
    have := key r.1 (e2.trans (revealM_later hr))
    simp only [Option.bind_some]
    have hz : r.1.inner.spkAtIndex (toLex (k, i)) = none := this
    rw [hz]; rfl

/-- **C71** in a release build the methods that reveal and look ahead panic for unknown keychains only -/
theorem C71_release_total (s : KeychainIndex K D) (k : K) (t : Nat) :
    ((s.revealToTargetM .release k t).isSome = true ↔ (s.keychains.get k).isSome = true) ∧
    ((s.setLookaheadM .release k t).isSome = true ↔ (s.keychains.get k).isSome = true) ∧
    ((s.keychains.get k).isSome = true → (s.lookaheadToTargetM .release k t).isSome = true) := by
  cases hk : s.keychains.get k with
  | none =>
    have h1 : s.revealToTargetM .release k t = none := by unfold revealToTargetM; rw [hk]; rfl
    have h2 : s.setLookaheadM .release k t = none := by unfold setLookaheadM replenishLookaheadM; simp only []; rw [hk]; rfl
    rw [h1, h2]
    exact ⟨Iff.rfl, Iff.rfl, fun h => by cases h⟩
  | some d =>
    obtain ⟨_, _, _, _, h1⟩ := revealM_release hk t
    obtain ⟨s', h2, -⟩ := replenishM_release (s := { s with lookahead := s.lookahead.insert k t }) hk
    obtain ⟨s'', h3, -⟩ := lookaheadToTargetM_release hk t
    have h2' : s.setLookaheadM .release k t = some s' := h2
    rw [h1, h2', h3]
    exact ⟨⟨fun _ => rfl, fun _ => rfl⟩, ⟨fun _ => rfl, fun _ => rfl⟩, fun _ => rfl⟩

/-- scanning, in a release build -/
theorem scanM_total_of_owned (s : KeychainIndex K D) (ho : Owned s.keychains s.inner) (l : List (OutPoint × TxOut)) :
    ∃ r, s.scanM .release l = some r := by
  have one : ∀ (s : KeychainIndex K D), Owned s.keychains s.inner → ∀ o x, ∃ r, s.scanTxoutM .release o x = some r := by
    intro s ho o x
    unfold scanTxoutM
    simp only []
    cases hs : (s.inner.scanTxout o x).2 with
    | none => exact ⟨_, rfl⟩
    | some ki =>
      have hi : s.inner.spkIndices.get x.spk = some ki := by
        unfold SpkIndex.scanTxout at hs
        cases hg : s.inner.spkIndices.get x.spk with
        | none => rw [hg] at hs; cases hs
        | some j => rw [hg] at hs; exact hs
      have hst := (ho.1.spk_iff _ _).2 hi
      obtain ⟨d, hk, -⟩ := ho.2 (ofLex ki).1 (ofLex ki).2 x.spk hst
      obtain ⟨_, _, _, _, hr⟩ := revealM_release (s := { s with inner := (s.inner.scanTxout o x).1 }) hk (ofLex ki).2
      simp only []
      rw [hr]
      exact ⟨_, rfl⟩
  have many : ∀ (l : List (OutPoint × TxOut)) (q : KeychainIndex K D × DerivationAdditions K), Owned q.1.keychains q.1.inner →
      ∃ r, l.foldlM (fun acc e => do
        let r ← acc.1.scanTxoutM .release e.1 e.2
        return (r.1, DerivationAdditions.append acc.2 r.2)) q = some r := by
    intro l
    induction l with
    | nil => exact fun q _ => ⟨q, rfl⟩
    | cons e l ih =>
      intro q hq
      rw [List.foldlM_cons]
      obtain ⟨r, hr⟩ := one q.1 hq e.1 e.2
      obtain ⟨z, hz⟩ := ih (r.1, DerivationAdditions.append q.2 r.2) ((scanTxoutM_later hr).owned hq)
      refine ⟨z, ?_⟩
      simp only [Option.bind_eq_bind]
      rw [hr]
      exact hz
  exact many l (s, OMap.empty) ho

/-- **C71** in a release build scanning never panics, after any history -/
theorem C71_release_scan_total (ops : List (KeychainIndex.Op K D)) (s log)
    (h : (empty : KeychainIndex K D).runFromM .release ops = some (s, log)) (l : List (OutPoint × TxOut)) :
    ∃ r, s.scanM .release l = some r :=
  scanM_total_of_owned s ((runM_later h).owned owned_empty) l

/-- **C71** `reveal_to_target` in a release build, with a derivable target and sums below `2^32`: exactly what C34 says of a debug
build, with no assumption on shared scripts -/
theorem C71_release_reveal (s : KeychainIndex K D) (k : K) (d : D) (hk : s.keychains.get k = some d) (hd : Derivable d)
    (target t : Nat) (ht : t = if hasWildcard d then target else 0) (hcap : t ≤ cap d)
    (h1 : numRevealed s k + s.lookaheadOf k ≤ u32Max) (h2 : t + s.lookaheadOf k ≤ u32Max) :
    ∃ r, s.revealToTargetM .release k target = some r ∧
    numRevealed r.1 k = max (numRevealed s k) (t + 1) ∧
    r.2.1 = spksBetween d (numRevealed s k) (t + 1) ∧
    r.2.2 = (if numRevealed s k ≤ t then OMap.empty.insert k t else OMap.empty) ∧
    (∀ k', k' ≠ k → r.1.lastRevealedIndex k' = s.lastRevealedIndex k') := by
  obtain ⟨x, hx⟩ := revealM_fits hk hd h1 (t := target) (by rw [← ht]; exact h2)
  refine ⟨_, hx, ?_⟩
  rw [newRevealed_le (by rw [← ht]; exact hcap), ← ht]
  by_cases hle : numRevealed s k ≤ t
  · rw [if_pos hle, if_pos hle]
    simp only []
    refine ⟨?_, ?_, trivial, ?_⟩
    · have e : numRevealed (⟨x, s.keychains, s.lastRevealed.insert k t, s.lookahead⟩ : KeychainIndex K D) k = t + 1 := by
        unfold numRevealed lastRevealedIndex
        simp only [OMap.get_insert_self]
      refine e.trans ?_
      omega
    · unfold rangeEx spksBetween
      rw [derive_range d hd]
      congr 2
      omega
    · intro k' hk'
      unfold lastRevealedIndex
      simp only []
      rw [OMap.get_insert, if_neg hk']
  · rw [if_neg hle, if_neg hle]
    simp only []
    refine ⟨?_, ?_, trivial, fun _ _ => rfl⟩
    · have e : numRevealed (⟨x, s.keychains, s.lastRevealed, s.lookahead⟩ : KeychainIndex K D) k = numRevealed s k := rfl
      refine e.trans ?_
      omega
    · unfold spksBetween
      have : t + 1 - numRevealed s k = 0 := by omega
      rw [this]; rfl

/-- **C71** the documentation promises a best effort for a target that cannot be reached.  With a lookahead, a target so large that
the sum of the two exceeds `u32` panics in a debug build and silently reveals nothing in a release build (without a lookahead it
reveals up to the last derivable index) -/
theorem C71_target_overflow (s : KeychainIndex K D) (k : K) (d : D) (hk : s.keychains.get k = some d) (hw : hasWildcard d = true)
    (t : Nat) (ht : t ≤ u32Max) (h1 : numRevealed s k + s.lookaheadOf k ≤ t) (h2 : u32Max < t + s.lookaheadOf k) :
    s.revealToTargetM .debug k t = none ∧ s.revealToTargetM .release k t = some (s, [], OMap.empty) := by
  refine ⟨?_, ?_⟩
  · rw [revealM_debug]
    cases hr : s.revealToTarget k t with
    | none => rfl
    | some r =>
      obtain ⟨d', x', h3, -, h4, -⟩ := reveal_spec hr
      rw [hk] at h3; cases h3
      rw [if_pos hw] at h4
      omega
  · rw [revealM_wraps hk ht hw (by omega) h2, if_neg (by omega)]

/-- a lookahead of `u32::MAX` set after the first reveal -/
def hugeLookahead : List (KeychainIndex.Op (Fin 3) DemoDesc) :=
  [.addKeychain 0 ⟨true, 0⟩, .revealNextSpk 0, .setLookahead 0 u32Max]

/-- **C71** a lookahead that does not fit panics at once in a debug build; a release build accepts it, stores nothing, and panics when
the next script is asked for -/
theorem C71_huge_lookahead : (empty : KeychainIndex (Fin 3) DemoDesc).runFromM .debug hugeLookahead = none ∧
    ∃ s log, (empty : KeychainIndex (Fin 3) DemoDesc).runFromM .release hugeLookahead = some (s, log) ∧
      s.lookaheadOf 0 = u32Max ∧ stored s 0 1 = none ∧ s.revealNextSpkM .release 0 = none := by
  refine ⟨by decide +kernel, ?_⟩
  have h1 : ((empty : KeychainIndex (Fin 3) DemoDesc).runFromM .release hugeLookahead).isSome = true := by decide +kernel
  have h2 : ∀ r ∈ (empty : KeychainIndex (Fin 3) DemoDesc).runFromM .release hugeLookahead,
    r.1.lookaheadOf 0 = u32Max ∧ stored r.1 0 1 = none ∧ r.1.revealNextSpkM .release 0 = none := by decide +kernel
  cases h : (empty : KeychainIndex (Fin 3) DemoDesc).runFromM .release hugeLookahead with
  | none => rw [h] at h1; cases h1
  | some r => exact ⟨r.1, r.2, rfl, h2 r h⟩

/-- two keychains with the same descriptor, both revealed up to index 1 -/
def sharedOps : List (KeychainIndex.Op (Fin 3) DemoDesc) :=
  [.addKeychain 0 ⟨true, 1⟩, .addKeychain 1 ⟨true, 1⟩, .revealToTarget 0 1, .revealToTarget 1 1]

/-- **C71** two keychains with the same descriptor in a release build: the second one reports its scripts as revealed and lists none
of them; a payment to them belongs to the first; asking the second for its next script works again from where the first stopped -/
theorem C71_same_descriptor_release : (empty : KeychainIndex (Fin 3) DemoDesc).runFromM .debug sharedOps = none ∧
    ∃ s log, (empty : KeychainIndex (Fin 3) DemoDesc).runFromM .release sharedOps = some (s, log) ∧
      s.lastRevealedIndex 1 = some 1 ∧ s.revealedSpksOfKeychainM .release 1 = some [] ∧
      s.inner.indexOfSpk 1 = some (toLex (0, 0)) ∧ (s.revealNextSpkM .release 1).map (fun r => r.2.1) = some (2, 9) := by
  refine ⟨by decide +kernel, ?_⟩
  have h1 : ((empty : KeychainIndex (Fin 3) DemoDesc).runFromM .release sharedOps).isSome = true := by decide +kernel
  have h2 : ∀ r ∈ (empty : KeychainIndex (Fin 3) DemoDesc).runFromM .release sharedOps,
    r.1.lastRevealedIndex 1 = some 1 ∧ r.1.revealedSpksOfKeychainM .release 1 = some [] ∧
      r.1.inner.indexOfSpk 1 = some (toLex (0, 0)) ∧ (r.1.revealNextSpkM .release 1).map (fun r => r.2.1) = some (2, 9) := by
    decide +kernel
  cases h : (empty : KeychainIndex (Fin 3) DemoDesc).runFromM .release sharedOps with
  | none => rw [h] at h1; cases h1
  | some r => exact ⟨r.1, r.2, rfl, h2 r h⟩

/-! ## the hypotheses can be met -/

-- C71_release_same: a debug run that completes
example : ((empty : KeychainIndex (Fin 3) DemoDesc).runFrom sameDescOps).isSome = true := by decide +kernel
-- C71_shared_script: the second keychain, about to reveal a script the first one has stored
example : ∀ r ∈ (empty : KeychainIndex (Fin 3) DemoDesc).runFromM .release sameDescOps,
    stored r.1 0 0 = some 1 ∧ r.1.keychains.get 1 = some ⟨true, 1⟩ ∧ spkAt (⟨true, 1⟩ : DemoDesc) 0 = some 1 ∧
    r.1.nextIndex 1 = some (0, true) := by decide +kernel
-- C71_target_overflow: lookahead 2, three revealed
example : exKc.keychains.get 0 = some ⟨true, 0⟩ ∧ numRevealed exKc 0 + exKc.lookaheadOf 0 ≤ u32Max - 1 ∧
    u32Max < (u32Max - 1) + exKc.lookaheadOf 0 := by decide +kernel
-- C71_release_reveal
example : exKc.keychains.get 0 = some ⟨true, 0⟩ ∧ numRevealed exKc 0 + exKc.lookaheadOf 0 ≤ u32Max ∧
    20 ≤ cap (⟨true, 0⟩ : DemoDesc) ∧ 20 + exKc.lookaheadOf 0 ≤ u32Max := by decide +kernel

/-! ## heights -/

variable {P : Type} [LinearOrder P] [ChainPosition P]

/-- **C71** the only arithmetic of an update, the height above the point of agreement, never overflows: for all `u32` heights both
builds compute the exact bound of the invalidation -/
theorem C71_invalidation_bound (b : Build) (c u : SparseChain P) (hu : ∀ h ∈ u.checkpoints.keys, h ≤ u32Max) :
    SparseChain.invalidLbM b c u = some (SparseChain.invalidLb c u) := by
  unfold SparseChain.invalidLbM SparseChain.invalidLb
  by_cases hc : SparseChain.lastUpdateCp u = none ∨ SparseChain.lastUpdateCp u = SparseChain.agreementPoint c u
  · rw [if_pos hc, if_pos hc]
  · rw [if_neg hc, if_neg hc]
    cases ha : SparseChain.agreementPoint c u with
    | none => rfl
    | some h =>
      obtain ⟨h', hm, hlt⟩ := SparseChain.agreement_lt ha hc
      exact add32_small b (by have := hu h' hm; omega)

/-- **C71** pruning to the checkpoint limit: exact in both builds, except when the limit is 0 and there is a checkpoint at
`u32::MAX`; then a debug build panics and a release build prunes nothing -/
theorem C71_prune (b : Build) (c : SparseChain P) (hc : ∀ h ∈ c.checkpoints.keys, h ≤ u32Max) :
    (¬ (c.checkpointLimit = some 0 ∧ u32Max ∈ c.checkpoints.keys) → c.pruneCheckpointsM b = some c.pruneCheckpoints) ∧
    (c.checkpointLimit = some 0 → u32Max ∈ c.checkpoints.keys →
      c.pruneCheckpointsM b = match b with | .debug => none | .release => some c) := by
  have hsort : c.checkpoints.keys.reverse.Pairwise (· > ·) := by
    rw [List.pairwise_reverse]; exact c.checkpoints.keys_sorted
  constructor
  · intro hno
    unfold SparseChain.pruneCheckpointsM SparseChain.pruneCheckpoints
    cases hl : c.checkpointLimit with
    | none => rfl
    | some n =>
      simp only []
      cases hg : c.checkpoints.keys.reverse[n]? with
      | none => rfl
      | some h =>
        have hm : h ∈ c.checkpoints.keys := List.mem_reverse.1 (List.mem_of_getElem? hg)
        have hlt : h + 1 ≤ u32Max := by
          have hle := hc h hm
          by_contra hbig
          have heq : h = u32Max := by omega
          subst heq
          cases n with
          | zero => exact hno ⟨hl, hm⟩
          | succ n =>
            obtain ⟨hn, he⟩ := List.getElem?_eq_some_iff.1 hg
            have h0 : 0 < c.checkpoints.keys.reverse.length := by omega
            have := List.pairwise_iff_getElem.1 hsort 0 (n + 1) h0 hn (by omega)
            rw [he] at this
            have h00 := hc _ (List.mem_reverse.1 (List.getElem_mem h0))
            omega
        simp only []
        rw [add32_small b hlt]
        rfl
  · intro hl hm
    have hhead : c.checkpoints.keys.reverse[0]? = some u32Max := by
      obtain ⟨i, hi, he⟩ := List.getElem_of_mem (List.mem_reverse.2 hm)
      have h0 : 0 < c.checkpoints.keys.reverse.length := by omega
      rw [List.getElem?_eq_getElem h0]
      rcases Nat.eq_zero_or_pos i with rfl | hp
      · exact congrArg some he
      · have := List.pairwise_iff_getElem.1 hsort 0 i h0 hi hp
        rw [he] at this
        have h00 := hc _ (List.mem_reverse.1 (List.getElem_mem h0))
        omega
    unfold SparseChain.pruneCheckpointsM
    rw [hl]
    simp only []
    rw [hhead]
    simp only []
    cases b with
    | debug =>
      rw [add32_debug]
      rfl
    | release =>
      rw [add32_release]
      have hz : wrap32 (u32Max + 1) = 0 := by
        have := wrap32_over (n := u32Max + 1) (by omega) (by decide)
        omega
      rw [hz]
      simp only [Option.map_some, Nat.zero_le, decide_true]
      congr 1
      have : c.checkpoints.filter (fun _ _ => true) = c.checkpoints := by
        apply OMap.ext_get
        intro k
        rw [OMap.get_filter]
        cases c.checkpoints.get k <;> rfl
      rw [this, ← hl]

/-- a chain that only has a checkpoint at `u32::MAX`, limited to zero checkpoints -/
def topChain : SparseChain TxHeight :=
  { (SparseChain.empty : SparseChain TxHeight) with checkpoints := OMap.empty.insert u32Max 5, checkpointLimit := some 0 }

example : topChain.checkpointLimit = some 0 ∧ u32Max ∈ topChain.checkpoints.keys ∧ ∀ h ∈ topChain.checkpoints.keys, h ≤ u32Max := by
  decide +kernel

end Verif.Props
