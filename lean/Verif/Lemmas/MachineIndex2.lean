import Verif.Lemmas.MachineIndex
import Mathlib.Data.List.TakeWhile

/-!
# Lemmas: what holds of the keychain index in every build, with or without overflow and shared scripts
-/

namespace Verif
open Verif Verif.Spec
variable {K D : Type} [LinearOrder K] [DescriptorOps D]

theorem mem_mapWhile {α β : Type} {f : α → Option β} {l : List α} {b : β} (h : b ∈ mapWhile f l) : ∃ a ∈ l, f a = some b := by
  induction l with
  | nil => cases h
  | cons a l ih =>
    unfold mapWhile at h
    cases hf : f a with
    | none => rw [hf] at h; cases h
    | some c =>
      rw [hf] at h
      rcases List.mem_cons.1 h with rfl | h
      · exact ⟨a, List.mem_cons_self, hf⟩
      · obtain ⟨a', h1, h2⟩ := ih h
        exact ⟨a', List.mem_cons_of_mem _ h1, h2⟩

theorem mem_derive {d : D} {l : List Nat} {e : Nat × Script} (h : e ∈ rangeDescriptorSpks d l) :
    spkAt d e.1 = some e.2 ∧ e.1 ≤ cap d := by
  obtain ⟨i, hi, he⟩ := mem_mapWhile h
  obtain ⟨spk, h1, h2⟩ := Option.map_eq_some_iff.1 he
  subst h2
  refine ⟨h1, ?_⟩
  have hb : i ≤ bip32MaxIndex := by have := List.mem_takeWhile_imp hi; simpa using this
  have hw := List.mem_takeWhile_imp ((List.takeWhile_sublist _).subset hi)
  unfold cap
  cases hc : hasWildcard d with
  | true => rw [if_pos rfl]; exact hb
  | false =>
    rw [hc, Bool.false_or] at hw
    have : i = 0 := by simpa using hw
    subst this; exact Nat.zero_le _

namespace KeychainIndex

/-- the stored scripts: only scripts of known keychains, at their index -/
def Owned (kc : OMap K D) (x : SpkIndex (K ×ₗ Nat)) : Prop :=
  HistInv x ∧ ∀ k i spk, x.spks.get (toLex (k, i)) = some spk → ∃ d, kc.get k = some d ∧ spkAt d i = some spk ∧ i ≤ cap d

/-- `s'` comes later than `s`: keychains and owners of scripts are kept -/
structure Later (s s' : KeychainIndex K D) : Prop where
  kc : ∀ k d, s.keychains.get k = some d → s'.keychains.get k = some d
  owner : ∀ spk i, s.inner.spkIndices.get spk = some i → s'.inner.spkIndices.get spk = some i
  owned : Owned s.keychains s.inner → Owned s'.keychains s'.inner

theorem Later.refl (s : KeychainIndex K D) : Later s s := ⟨fun _ _ h => h, fun _ _ h => h, fun h => h⟩
theorem Later.trans {a b c : KeychainIndex K D} (h : Later a b) (h' : Later b c) : Later a c :=
  ⟨fun k d x => h'.kc k d (h.kc k d x), fun p i x => h'.owner p i (h.owner p i x), fun x => h'.owned (h.owned x)⟩

theorem insertSpk_keeps {I : Type} [LinearOrder I] (x : SpkIndex I) (i j : I) (p spk : Script)
    (h : x.spkIndices.get spk = some j) : (x.insertSpk i p).1.spkIndices.get spk = some j := by
  unfold SpkIndex.insertSpk
  cases hp : x.spkIndices.get p with
  | some _ => exact h
  | none =>
    simp only [OMap.get_insert]
    rw [if_neg (by rintro rfl; rw [hp] at h; cases h)]
    exact h

theorem insertSpk_owned {kc : OMap K D} {x : SpkIndex (K ×ₗ Nat)} (hx : Owned kc x) {k : K} {d : D} {i : Nat} {spk : Script}
    (hk : kc.get k = some d) (hs : spkAt d i = some spk) (hi : i ≤ cap d) : Owned kc (x.insertSpk (toLex (k, i)) spk).1 := by
  cases hp : x.spkIndices.get spk with
  | some j =>
    have : x.insertSpk (toLex (k, i)) spk = (x, false) := by unfold SpkIndex.insertSpk; rw [hp]
    rw [this]; exact hx
  | none =>
    have hfree : x.spks.get (toLex (k, i)) = none := by
      cases hg : x.spks.get (toLex (k, i)) with
      | none => rfl
      | some p =>
        obtain ⟨d', h1, h2, -⟩ := hx.2 k i p hg
        rw [hk] at h1; cases h1
        rw [hs] at h2; cases h2
        have := (hx.1.spk_iff _ _).1 hg
        rw [hp] at this; cases this
    refine ⟨hx.1.insert _ _ hfree, ?_⟩
    intro k' i' p hg
    have hg' : (x.spks.insert (toLex (k, i)) spk).get (toLex (k', i')) = some p := by
      unfold SpkIndex.insertSpk at hg; rw [hp] at hg; exact hg
    rw [OMap.get_insert] at hg'
    by_cases he : (toLex (k', i') : K ×ₗ Nat) = toLex (k, i)
    · rw [if_pos he] at hg'
      cases hg'
      have := toLex_inj.1 he
      cases this
      exact ⟨d, hk, hs, hi⟩
    · rw [if_neg he] at hg'
      exact hx.2 k' i' p hg'

theorem storeM_keeps {b : Build} {x x' : SpkIndex (K ×ₗ Nat)} {k : K} {f : Nat} {l : List (Nat × Script)}
    (h : storeSpksM b x k f l = some x') {spk : Script} {j : K ×ₗ Nat} (hj : x.spkIndices.get spk = some j) :
    x'.spkIndices.get spk = some j := by
  induction l generalizing x with
  | nil => cases h; exact hj
  | cons e l ih =>
    obtain ⟨i, p⟩ := e
    unfold storeSpksM at h
    by_cases hf : f ≤ i
    · rw [if_pos hf] at h
      simp only [] at h
      split_ifs at h
      exact ih h (insertSpk_keeps x _ _ _ _ hj)
    · rw [if_neg hf] at h; exact ih h hj

theorem storeM_owned {b : Build} {x x' : SpkIndex (K ×ₗ Nat)} {k : K} {f : Nat} {l : List (Nat × Script)} {kc : OMap K D} {d : D}
    (h : storeSpksM b x k f l = some x') (hk : kc.get k = some d) (hl : ∀ e ∈ l, spkAt d e.1 = some e.2 ∧ e.1 ≤ cap d)
    (hx : Owned kc x) : Owned kc x' := by
  induction l generalizing x with
  | nil => cases h; exact hx
  | cons e l ih =>
    obtain ⟨i, p⟩ := e
    have he := hl (i, p) List.mem_cons_self
    have hl' := fun e h => hl e (List.mem_cons_of_mem _ h)
    unfold storeSpksM at h
    by_cases hf : f ≤ i
    · rw [if_pos hf] at h
      simp only [] at h
      split_ifs at h
      exact ih h hl' (insertSpk_owned hx hk he.1 he.2)
    · rw [if_neg hf] at h; exact ih h hl' hx

theorem storeM_release (x : SpkIndex (K ×ₗ Nat)) (k : K) (f : Nat) (l : List (Nat × Script)) :
    ∃ x', storeSpksM .release x k f l = some x' := by
  induction l generalizing x with
  | nil => exact ⟨x, rfl⟩
  | cons e l ih =>
    obtain ⟨i, p⟩ := e
    unfold storeSpksM
    by_cases hf : f ≤ i
    · rw [if_pos hf]
      simp only [Build.assert, if_true]
      exact ih _
    · rw [if_neg hf]; exact ih x

theorem replenishM_later {b : Build} {s s' : KeychainIndex K D} {k : K} (h : s.replenishLookaheadM b k = some s') : Later s s' := by
  unfold replenishLookaheadM at h
  obtain ⟨d, hk, h⟩ := Option.bind_eq_some_iff.1 h
  obtain ⟨nr, -, h⟩ := Option.bind_eq_some_iff.1 h
  obtain ⟨st, -, h⟩ := Option.bind_eq_some_iff.1 h
  obtain ⟨x, hx, h⟩ := Option.bind_eq_some_iff.1 h
  cases h
  exact ⟨fun _ _ h => h, fun _ _ h => storeM_keeps hx h, fun h => storeM_owned hx hk (fun _ he => mem_derive he) h⟩

theorem setLookaheadM_later {b : Build} {s s' : KeychainIndex K D} {k : K} {n : Nat} (h : s.setLookaheadM b k n = some s') :
    Later s s' := by
  have := replenishM_later h
  exact ⟨this.kc, this.owner, this.owned⟩

theorem lookaheadToTargetM_later {b : Build} {s s' : KeychainIndex K D} {k : K} {n : Nat}
    (h : s.lookaheadToTargetM b k n = some s') : Later s s' := by
  unfold lookaheadToTargetM at h
  simp only [] at h
  by_cases hn : s.nextStoreIndex k < n
  · rw [if_pos hn] at h
    obtain ⟨x, hx, h⟩ := Option.bind_eq_some_iff.1 h
    cases h
    have := setLookaheadM_later hx
    exact ⟨this.kc, this.owner, this.owned⟩
  · rw [if_neg hn] at h; cases h; exact Later.refl _

theorem revealM_later {b : Build} {s : KeychainIndex K D} {k : K} {t : Nat} {r} (h : s.revealToTargetM b k t = some r) :
    Later s r.1 := by
  unfold revealToTargetM at h
  obtain ⟨d, hk, h⟩ := Option.bind_eq_some_iff.1 h
  obtain ⟨nr, -, h⟩ := Option.bind_eq_some_iff.1 h
  obtain ⟨st, -, h⟩ := Option.bind_eq_some_iff.1 h
  obtain ⟨sp, -, h⟩ := Option.bind_eq_some_iff.1 h
  obtain ⟨x, hx, h⟩ := Option.bind_eq_some_iff.1 h
  have key : ∀ lr la, Later s ⟨x, s.keychains, lr, la⟩ := fun lr la =>
    ⟨fun _ _ h => h, fun _ _ h => storeM_keeps hx h, fun h => storeM_owned hx hk (fun _ he => mem_derive he) h⟩
  generalize revealedIndexM nr st (if hasWildcard d then t else 0) (rangeDescriptorSpks d (rangeIn st sp)) = ri at h
  cases ri with
  | none => cases h; exact key _ _
  | some i =>
    simp only [] at h
    revert h
    generalize b.assert (match s.lastRevealed.get k with | some old => decide (old < i) | none => true) = c
    intro h
    cases c with
    | false => cases h
    | true =>
      rw [if_pos rfl] at h
      obtain ⟨e, -, h⟩ := Option.bind_eq_some_iff.1 h
      cases h
      exact key _ _

theorem foldlM_later {α β : Type} (π : β → KeychainIndex K D) (f : β → α → Option β)
    (hf : ∀ b a b', f b a = some b' → Later (π b) (π b')) (l : List α) (b b' : β) (h : l.foldlM f b = some b') :
    Later (π b) (π b') := by
  induction l generalizing b with
  | nil => cases h; exact Later.refl _
  | cons a l ih =>
    rw [List.foldlM_cons] at h
    obtain ⟨x, hx, h⟩ := Option.bind_eq_some_iff.1 h
    exact (hf b a x hx).trans (ih x h)

theorem revealMultiM_later {b : Build} {s : KeychainIndex K D} {m : OMap K Nat} {r} (h : s.revealToTargetMultiM b m = some r) :
    Later s r.1 := by
  unfold revealToTargetMultiM at h
  refine foldlM_later (fun r : KeychainIndex K D × OMap K (List (Nat × Script)) × DerivationAdditions K => r.1) _ ?_ _ _ _ h
  intro q e q' hq
  obtain ⟨x, hx, hq⟩ := Option.bind_eq_some_iff.1 hq
  cases hq
  exact revealM_later hx

theorem markUsed_later (s : KeychainIndex K D) (k : K) (i : Nat) : Later s (s.markUsed k i).1 :=
  ⟨fun _ _ h => h, fun _ _ h => h, fun h => ⟨h.1.step_other (.markUsed (toLex (k, i))) (fun _ _ h => by cases h), h.2⟩⟩

theorem unmarkUsed_spks {I : Type} [LinearOrder I] (x : SpkIndex I) (i : I) :
    (x.unmarkUsed i).1.spks = x.spks ∧ (x.unmarkUsed i).1.spkIndices = x.spkIndices := by
  unfold SpkIndex.unmarkUsed
  split_ifs <;> exact ⟨rfl, rfl⟩

theorem unmarkUsed_later (s : KeychainIndex K D) (k : K) (i : Nat) : Later s (s.unmarkUsed k i).1 := by
  have hs := unmarkUsed_spks s.inner (toLex (k, i))
  refine ⟨fun _ _ h => h, fun p j h => ?_, fun h => ⟨h.1.step_other (.unmarkUsed (toLex (k, i))) (fun _ _ h => by cases h), ?_⟩⟩
  · exact (congrArg (fun m => m.get p) hs.2).trans h
  · intro k' i' p hg
    exact h.2 k' i' p ((congrArg (fun m => m.get (toLex (k', i'))) hs.1).symm.trans hg)

theorem innerScan_later (s : KeychainIndex K D) (o : OutPoint) (x : TxOut) :
    Later s { s with inner := (s.inner.scanTxout o x).1 } := by
  have h1 : (s.inner.scanTxout o x).1.spks = s.inner.spks := (scanTxout_spks s.inner o x).1
  have h2 : (s.inner.scanTxout o x).1.spkIndices = s.inner.spkIndices := (scanTxout_spks s.inner o x).2
  refine ⟨fun _ _ h => h, fun p j h => ?_, fun h => ⟨h.1.step_other (.scanTxout o x) (fun _ _ h => by cases h), ?_⟩⟩
  · exact (congrArg (fun m => m.get p) h2).trans h
  · intro k' i' p hg
    exact h.2 k' i' p ((congrArg (fun m => m.get (toLex (k', i'))) h1).symm.trans hg)

theorem scanTxoutM_later {b : Build} {s : KeychainIndex K D} {o : OutPoint} {x : TxOut} {r} (h : s.scanTxoutM b o x = some r) :
    Later s r.1 := by
  unfold scanTxoutM at h
  simp only [] at h
  cases hs : (s.inner.scanTxout o x).2 with
  | none => rw [hs] at h; cases h; exact innerScan_later s o x
  | some ki =>
    rw [hs] at h
    obtain ⟨q, hq, h⟩ := Option.map_eq_some_iff.1 h
    cases h
    exact (innerScan_later s o x).trans (revealM_later hq)

theorem scanM_later {b : Build} {s : KeychainIndex K D} {l : List (OutPoint × TxOut)} {r} (h : s.scanM b l = some r) :
    Later s r.1 := by
  unfold scanM at h
  refine foldlM_later (fun r : KeychainIndex K D × DerivationAdditions K => r.1) _ ?_ _ _ _ h
  intro q e q' hq
  obtain ⟨x, hx, hq⟩ := Option.bind_eq_some_iff.1 hq
  cases hq
  exact scanTxoutM_later (r := x) hx

theorem revealNextM_later {b : Build} {s : KeychainIndex K D} {k : K} {r} (h : s.revealNextSpkM b k = some r) : Later s r.1 := by
  unfold revealNextSpkM at h
  obtain ⟨n, -, h⟩ := Option.bind_eq_some_iff.1 h
  obtain ⟨q, hq, h⟩ := Option.bind_eq_some_iff.1 h
  obtain ⟨p, -, h⟩ := Option.bind_eq_some_iff.1 h
  cases h
  exact revealM_later hq

theorem nextUnusedM_later {b : Build} {s : KeychainIndex K D} {k : K} {r} (h : s.nextUnusedSpkM b k = some r) : Later s r.1 := by
  unfold nextUnusedSpkM at h
  obtain ⟨l, -, h⟩ := Option.bind_eq_some_iff.1 h
  cases l with
  | nil => exact revealNextM_later h
  | cons e l =>
    obtain ⟨i, p⟩ := e
    obtain ⟨q, -, h⟩ := Option.bind_eq_some_iff.1 h
    cases h
    exact Later.refl _

theorem addKeychain_later [DecidableEq D] {s s' : KeychainIndex K D} {k : K} {d : D} (h : s.addKeychain k d = some s') : Later s s' := by
  have hkc := (addKeychain_inv h).1
  have hin : s'.inner = s.inner := by
    unfold addKeychain at h
    cases hk : s.keychains.get k with
    | none => rw [hk] at h; cases h; rfl
    | some d' => rw [hk] at h; simp only [] at h; split_ifs at h; cases h; rfl
  refine ⟨hkc, fun p i h => by rw [hin]; exact h, fun h => ⟨by rw [hin]; exact h.1, ?_⟩⟩
  intro k' i p hg
  rw [hin] at hg
  obtain ⟨d', h1, h2⟩ := h.2 k' i p hg
  exact ⟨d', hkc _ _ h1, h2⟩

theorem stepM_later [DecidableEq D] {b : Build} {s : KeychainIndex K D} {op : Op K D} {r} (h : s.stepM b op = some r) : Later s r.1 := by
  cases op with
  | addKeychain k d => obtain ⟨x, hx, h⟩ := Option.map_eq_some_iff.1 h; cases h; exact addKeychain_later hx
  | setLookahead k n => obtain ⟨x, hx, h⟩ := Option.map_eq_some_iff.1 h; cases h; exact setLookaheadM_later hx
  | setLookaheadForAll n =>
    obtain ⟨x, hx, h⟩ := Option.map_eq_some_iff.1 h; cases h
    exact foldlM_later (fun s => s) _ (fun _ _ _ h => setLookaheadM_later h) _ _ _ hx
  | lookaheadToTarget k n => obtain ⟨x, hx, h⟩ := Option.map_eq_some_iff.1 h; cases h; exact lookaheadToTargetM_later hx
  | lookaheadToTargetMulti m =>
    obtain ⟨x, hx, h⟩ := Option.map_eq_some_iff.1 h; cases h
    exact foldlM_later (fun s => s) (fun (s : KeychainIndex K D) (e : K × Nat) => s.lookaheadToTargetM b e.1 e.2)
      (fun _ _ _ h => lookaheadToTargetM_later h) _ _ _ hx
  | revealToTarget k n => obtain ⟨x, hx, h⟩ := Option.map_eq_some_iff.1 h; cases h; exact revealM_later hx
  | revealToTargetMulti m => obtain ⟨x, hx, h⟩ := Option.map_eq_some_iff.1 h; cases h; exact revealMultiM_later hx
  | revealNextSpk k => obtain ⟨x, hx, h⟩ := Option.map_eq_some_iff.1 h; cases h; exact revealNextM_later hx
  | revealAndReserveNextSpk k =>
    obtain ⟨x, hx, h⟩ := Option.map_eq_some_iff.1 h; cases h
    obtain ⟨q, hq, hx⟩ := Option.bind_eq_some_iff.1 hx
    obtain ⟨p, -, hx⟩ := Option.bind_eq_some_iff.1 hx
    cases hx
    exact (revealNextM_later hq).trans (markUsed_later _ _ _)
  | nextUnusedSpk k => obtain ⟨x, hx, h⟩ := Option.map_eq_some_iff.1 h; cases h; exact nextUnusedM_later hx
  | reserveNextUnusedSpk k =>
    obtain ⟨x, hx, h⟩ := Option.map_eq_some_iff.1 h; cases h
    obtain ⟨q, hq, hx⟩ := Option.bind_eq_some_iff.1 hx
    obtain ⟨p, -, hx⟩ := Option.bind_eq_some_iff.1 hx
    cases hx
    exact (nextUnusedM_later hq).trans (markUsed_later _ _ _)
  | markUsed k i => cases h; exact markUsed_later s k i
  | unmarkUsed k i => cases h; exact unmarkUsed_later s k i
  | scanTxout o x => exact scanTxoutM_later h
  | scan l => exact scanM_later h
  | applyAdditions a => obtain ⟨x, hx, h⟩ := Option.map_eq_some_iff.1 h; cases h; exact revealMultiM_later hx

theorem runM_later [DecidableEq D] {b : Build} {ops : List (Op K D)} {s : KeychainIndex K D} {r} (h : s.runFromM b ops = some r) :
    Later s r.1 := by
  induction ops generalizing s r with
  | nil => cases h; exact Later.refl _
  | cons op l ih =>
    unfold runFromM at h
    obtain ⟨x, hx, h⟩ := Option.bind_eq_some_iff.1 h
    obtain ⟨y, hy, h⟩ := Option.bind_eq_some_iff.1 h
    cases h
    exact (stepM_later hx).trans (ih (r := y) hy)

theorem owned_empty : Owned (empty : KeychainIndex K D).keychains (empty : KeychainIndex K D).inner :=
  ⟨⟨[], rfl, fun i s s' h => absurd h SpkIndex.firstIndex_nil⟩, fun _ _ _ h => by cases h⟩

end KeychainIndex
end Verif
