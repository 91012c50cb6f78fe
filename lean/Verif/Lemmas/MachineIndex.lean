import Verif.Model.MachineIndex
import Verif.Lemmas.KeychainIndex4

/-!
# Lemmas: the keychain index in both build profiles
-/

namespace Verif
open Verif Verif.Spec
variable {K D : Type} [LinearOrder K] [DescriptorOps D]

/-- every answer of `a` is an answer of `b` -/
def Answers {α : Type} (a b : Option α) : Prop := ∀ r, a = some r → b = some r

theorem Answers.refl {α : Type} (a : Option α) : Answers a a := fun _ h => h
theorem Answers.bind {α β : Type} {a b : Option α} {f g : α → Option β} (h : Answers a b) (hf : ∀ x, Answers (f x) (g x)) :
    Answers (a.bind f) (b.bind g) := by
  intro r hr
  obtain ⟨x, h1, h2⟩ := Option.bind_eq_some_iff.1 hr
  rw [h x h1]; exact hf x r h2
theorem Answers.map {α β : Type} {a b : Option α} (f : α → β) (h : Answers a b) : Answers (a.map f) (b.map f) := by
  intro r hr
  obtain ⟨x, h1, h2⟩ := Option.map_eq_some_iff.1 hr
  rw [h x h1]; exact congrArg some h2
theorem Answers.foldlM {α β : Type} {f g : β → α → Option β} (h : ∀ b a, Answers (f b a) (g b a)) (l : List α) (b : β) :
    Answers (l.foldlM f b) (l.foldlM g b) := by
  induction l generalizing b with
  | nil => exact Answers.refl _
  | cons a l ih =>
    rw [List.foldlM_cons, List.foldlM_cons]
    exact Answers.bind (h b a) fun x => ih x

theorem add32_debug (x y : Nat) : Build.debug.add32 x y = addU32 x y := by
  unfold Build.add32 Build.unsigned addU32
  have hu : u32Max = 4294967295 := rfl
  by_cases h : x + y ≤ u32Max
  · rw [if_pos h, if_pos (by constructor <;> omega)]
    congr 1
  · rw [if_neg h, if_neg (by omega)]

theorem add32_small {x y : Nat} (b : Build) (h : x + y ≤ u32Max) : b.add32 x y = some (x + y) := by
  unfold Build.add32 Build.unsigned
  have hu : u32Max = 4294967295 := rfl
  rw [if_pos (by constructor <;> omega)]
  congr 1

/-- `u32` wrapping around -/
def wrap32 (n : Nat) : Nat := n % 4294967296

theorem wrap32_small {n : Nat} (h : n ≤ u32Max) : wrap32 n = n := Nat.mod_eq_of_lt (by have : u32Max = 4294967295 := rfl; omega)
theorem wrap32_over {n : Nat} (h : u32Max < n) (h' : n ≤ 2 * u32Max) : wrap32 n + (u32Max + 1) = n := by
  have : u32Max = 4294967295 := rfl
  unfold wrap32; omega

theorem add32_release (x y : Nat) : Build.release.add32 x y = some (wrap32 (x + y)) := by
  unfold Build.add32 Build.unsigned
  have e : (((x : Int) + y) % 2 ^ 32).toNat = wrap32 (x + y) := by unfold wrap32; omega
  by_cases h : x + y < 2 ^ 32
  · rw [if_pos (by constructor <;> omega)]
    congr 1
    unfold wrap32
    omega
  · rw [if_neg (by omega)]
    exact congrArg some e

attribute [irreducible] wrap32

theorem add32_answers (x y : Nat) : Answers (Build.debug.add32 x y) (Build.release.add32 x y) := by
  intro r hr
  rw [add32_debug] at hr
  obtain ⟨rfl, h⟩ := addU32_eq hr
  exact add32_small _ h

namespace KeychainIndex

/-! ## a debug build is the model -/

theorem nextRevealM_debug (s : KeychainIndex K D) (k : K) : s.nextRevealIndexM .debug k = s.nextRevealIndex k := by
  unfold nextRevealIndexM nextRevealIndex
  cases s.lastRevealed.get k with
  | none => rfl
  | some v => exact add32_debug v 1

theorem storeM_debug (x : SpkIndex (K ×ₗ Nat)) (k : K) (f : Nat) (l : List (Nat × Script)) :
    storeSpksM .debug x k f l = storeSpks x k f l := by
  induction l generalizing x with
  | nil => rfl
  | cons e l ih =>
    obtain ⟨i, spk⟩ := e
    unfold storeSpksM storeSpks
    by_cases h : f ≤ i
    · rw [if_pos h, if_pos h]
      simp only [Build.assert]
      rw [ih]
      rfl
    · rw [if_neg h, if_neg h, ih]

theorem replenishM_debug (s : KeychainIndex K D) (k : K) : s.replenishLookaheadM .debug k = s.replenishLookahead k := by
  unfold replenishLookaheadM replenishLookahead
  simp only [nextRevealM_debug, storeM_debug, add32_debug]

theorem setLookaheadM_debug (s : KeychainIndex K D) (k : K) (n : Nat) : s.setLookaheadM .debug k n = s.setLookahead k n :=
  replenishM_debug _ k

theorem lookaheadToTargetM_debug (s : KeychainIndex K D) (k : K) (n : Nat) :
    s.lookaheadToTargetM .debug k n = s.lookaheadToTarget k n := by
  unfold lookaheadToTargetM lookaheadToTarget
  simp only [setLookaheadM_debug]
  rfl

theorem revealM_debug (s : KeychainIndex K D) (k : K) (t : Nat) : s.revealToTargetM .debug k t = s.revealToTarget k t := by
  unfold revealToTargetM revealToTarget
  simp only [nextRevealM_debug, storeM_debug, add32_debug]
  cases s.keychains.get k with
  | none => rfl
  | some d =>
    simp only [Option.bind_eq_bind, Option.bind_some]
    cases s.nextRevealIndex k with
    | none => rfl
    | some nr =>
      simp only [Option.bind_some]
      cases ha : addU32 nr (s.lookaheadOf k) with
      | none => rfl
      | some st =>
        obtain ⟨rfl, -⟩ := addU32_eq ha
        simp only [Option.bind_some]
        cases addU32 (if hasWildcard d then t else 0) (s.lookaheadOf k) with
        | none => rfl
        | some sp =>
          simp only [Option.bind_some]
          cases storeSpks s.inner k (s.nextStoreIndex k) (rangeDescriptorSpks d (rangeIn (nr + s.lookaheadOf k) sp)) with
          | none => rfl
          | some x' =>
            simp only [Option.bind_some]
            have e : revealedIndexM nr (nr + s.lookaheadOf k) (if hasWildcard d then t else 0)
              (rangeDescriptorSpks d (rangeIn (nr + s.lookaheadOf k) sp)) =
              revealedIndex nr (s.lookaheadOf k) (if hasWildcard d then t else 0)
              (rangeDescriptorSpks d (rangeIn (nr + s.lookaheadOf k) sp)) := rfl
            rw [e]
            cases revealedIndex nr (s.lookaheadOf k) (if hasWildcard d then t else 0)
              (rangeDescriptorSpks d (rangeIn (nr + s.lookaheadOf k) sp)) with
            | none => rfl
            | some i =>
              simp only [Build.assert]
              cases s.lastRevealed.get k with
              | none => rfl
              | some old =>
                by_cases ho : i ≤ old
                · have : ¬ old < i := by omega
                  simp [ho, this]
                · have : old < i := by omega
                  simp [ho, this]

theorem revealMultiM_debug (s : KeychainIndex K D) (m : OMap K Nat) :
    s.revealToTargetMultiM .debug m = s.revealToTargetMulti m := by
  unfold revealToTargetMultiM revealToTargetMulti
  simp only [revealM_debug]

theorem scanTxoutM_debug (s : KeychainIndex K D) (o : OutPoint) (x : TxOut) : s.scanTxoutM .debug o x = s.scanTxout o x := by
  unfold scanTxoutM scanTxout
  simp only [revealM_debug]
  rfl

theorem scanM_debug (s : KeychainIndex K D) (l : List (OutPoint × TxOut)) : s.scanM .debug l = s.scan l := by
  unfold scanM scan
  simp only [scanTxoutM_debug]

theorem revealNextM_debug (s : KeychainIndex K D) (k : K) : s.revealNextSpkM .debug k = s.revealNextSpk k := by
  unfold revealNextSpkM revealNextSpk
  simp only [revealM_debug]

theorem unusedM_debug (s : KeychainIndex K D) (k : K) : s.unusedSpksOfKeychainM .debug k = s.unusedSpksOfKeychain k := by
  unfold unusedSpksOfKeychainM unusedSpksOfKeychain
  simp only [nextRevealM_debug]

theorem revealedM_debug (s : KeychainIndex K D) (k : K) : s.revealedSpksOfKeychainM .debug k = s.revealedSpksOfKeychain k := by
  unfold revealedSpksOfKeychainM revealedSpksOfKeychain
  simp only [nextRevealM_debug]

theorem nextUnusedM_debug (s : KeychainIndex K D) (k : K) : s.nextUnusedSpkM .debug k = s.nextUnusedSpk k := by
  unfold nextUnusedSpkM nextUnusedSpk
  simp only [unusedM_debug, revealNextM_debug]
  cases s.unusedSpksOfKeychain k with
  | none => rfl
  | some l => cases l <;> rfl

theorem stepM_debug [DecidableEq D] (s : KeychainIndex K D) (op : Op K D) : s.stepM .debug op = s.step op := by
  cases op <;> simp only [stepM, step, setLookaheadM_debug, setLookaheadForAllM, setLookaheadForAll, lookaheadToTargetM_debug,
    lookaheadToTargetMultiM, lookaheadToTargetMulti, revealM_debug, revealMultiM_debug, revealNextM_debug,
    revealAndReserveNextSpkM, revealAndReserveNextSpk, nextUnusedM_debug, reserveNextUnusedSpkM, reserveNextUnusedSpk,
    scanTxoutM_debug, scanM_debug]

theorem runM_debug [DecidableEq D] (ops : List (Op K D)) (s : KeychainIndex K D) : s.runFromM .debug ops = s.runFrom ops := by
  induction ops generalizing s with
  | nil => rfl
  | cons op l ih =>
    unfold runFromM runFrom
    rw [stepM_debug]
    simp only [ih]

/-! ## whatever a debug build answers, a release build answers too -/

theorem nextRevealM_answers (s : KeychainIndex K D) (k : K) : Answers (s.nextRevealIndexM .debug k) (s.nextRevealIndexM .release k) := by
  unfold nextRevealIndexM
  cases s.lastRevealed.get k with
  | none => exact Answers.refl _
  | some v => exact add32_answers v 1

theorem storeM_answers (x : SpkIndex (K ×ₗ Nat)) (k : K) (f : Nat) (l : List (Nat × Script)) :
    Answers (storeSpksM .debug x k f l) (storeSpksM .release x k f l) := by
  induction l generalizing x with
  | nil => exact Answers.refl _
  | cons e l ih =>
    obtain ⟨i, spk⟩ := e
    unfold storeSpksM
    by_cases h : f ≤ i
    · rw [if_pos h, if_pos h]
      simp only [Build.assert, if_true]
      intro r hr
      cases hb : (x.insertSpk (toLex (k, i)) spk).2 with
      | false => rw [hb] at hr; cases hr
      | true => rw [hb] at hr; simp only [if_true] at hr; exact ih _ r hr
    · rw [if_neg h, if_neg h]; exact ih x

theorem replenishM_answers (s : KeychainIndex K D) (k : K) :
    Answers (s.replenishLookaheadM .debug k) (s.replenishLookaheadM .release k) := by
  unfold replenishLookaheadM
  exact (Answers.refl _).bind fun d => (nextRevealM_answers s k).bind fun nr => (add32_answers _ _).bind fun st =>
    (storeM_answers _ _ _ _).bind fun x => Answers.refl _

theorem setLookaheadM_answers (s : KeychainIndex K D) (k : K) (n : Nat) :
    Answers (s.setLookaheadM .debug k n) (s.setLookaheadM .release k n) := replenishM_answers _ k

theorem lookaheadToTargetM_answers (s : KeychainIndex K D) (k : K) (n : Nat) :
    Answers (s.lookaheadToTargetM .debug k n) (s.lookaheadToTargetM .release k n) := by
  unfold lookaheadToTargetM
  simp only []
  by_cases h : s.nextStoreIndex k < n
  · rw [if_pos h, if_pos h]
    exact (setLookaheadM_answers s k _).bind fun x => Answers.refl _
  · rw [if_neg h, if_neg h]; exact Answers.refl _

theorem revealM_answers (s : KeychainIndex K D) (k : K) (t : Nat) :
    Answers (s.revealToTargetM .debug k t) (s.revealToTargetM .release k t) := by
  unfold revealToTargetM
  refine (Answers.refl _).bind fun d => (nextRevealM_answers s k).bind fun nr => (add32_answers _ _).bind fun st =>
    (add32_answers _ _).bind fun sp => (storeM_answers _ _ _ _).bind fun x => ?_
  cases revealedIndexM nr st (if hasWildcard d then t else 0) (rangeDescriptorSpks d (rangeIn st sp)) with
  | none => exact Answers.refl _
  | some i =>
    intro r hr
    simp only [Build.assert] at hr ⊢
    have hc : ∀ c : Bool, (if c = true then (Build.debug.add32 i 1).bind fun e =>
        some (({ s with inner := x, lastRevealed := s.lastRevealed.insert k i } : KeychainIndex K D),
          rangeDescriptorSpks d (rangeEx nr e), (OMap.empty.insert k i : DerivationAdditions K)) else none) = some r →
        ((Build.release.add32 i 1).bind fun e =>
        some (({ s with inner := x, lastRevealed := s.lastRevealed.insert k i } : KeychainIndex K D),
          rangeDescriptorSpks d (rangeEx nr e), (OMap.empty.insert k i : DerivationAdditions K))) = some r := by
      intro c h
      cases c with
      | false => cases h
      | true => exact (add32_answers i 1).bind (fun e => Answers.refl _) r h
    exact hc _ hr

theorem revealMultiM_answers (s : KeychainIndex K D) (m : OMap K Nat) :
    Answers (s.revealToTargetMultiM .debug m) (s.revealToTargetMultiM .release m) := by
  unfold revealToTargetMultiM
  exact Answers.foldlM (fun b a => (revealM_answers _ _ _).bind fun x => Answers.refl _) _ _

theorem scanTxoutM_answers (s : KeychainIndex K D) (o : OutPoint) (x : TxOut) :
    Answers (s.scanTxoutM .debug o x) (s.scanTxoutM .release o x) := by
  unfold scanTxoutM
  simp only []
  cases (s.inner.scanTxout o x).2 with
  | none => exact Answers.refl _
  | some ki => exact (revealM_answers _ _ _).map _

theorem scanM_answers (s : KeychainIndex K D) (l : List (OutPoint × TxOut)) : Answers (s.scanM .debug l) (s.scanM .release l) := by
  unfold scanM
  exact Answers.foldlM (fun b a => (scanTxoutM_answers _ _ _).bind fun x => Answers.refl _) _ _

theorem revealNextM_answers (s : KeychainIndex K D) (k : K) : Answers (s.revealNextSpkM .debug k) (s.revealNextSpkM .release k) := by
  unfold revealNextSpkM
  exact (Answers.refl _).bind fun n => (revealM_answers _ _ _).bind fun r => Answers.refl _

theorem unusedM_answers (s : KeychainIndex K D) (k : K) :
    Answers (s.unusedSpksOfKeychainM .debug k) (s.unusedSpksOfKeychainM .release k) := by
  unfold unusedSpksOfKeychainM
  exact (nextRevealM_answers s k).bind fun n => Answers.refl _

theorem revealedM_answers (s : KeychainIndex K D) (k : K) :
    Answers (s.revealedSpksOfKeychainM .debug k) (s.revealedSpksOfKeychainM .release k) := by
  unfold revealedSpksOfKeychainM
  exact (nextRevealM_answers s k).bind fun n => Answers.refl _

theorem nextUnusedM_answers (s : KeychainIndex K D) (k : K) :
    Answers (s.nextUnusedSpkM .debug k) (s.nextUnusedSpkM .release k) := by
  unfold nextUnusedSpkM
  refine (unusedM_answers s k).bind fun l => ?_
  cases l with
  | nil => exact revealNextM_answers s k
  | cons e l => exact Answers.refl _

theorem stepM_answers [DecidableEq D] (s : KeychainIndex K D) (op : Op K D) : Answers (s.stepM .debug op) (s.stepM .release op) := by
  cases op with
  | addKeychain k d => exact Answers.refl _
  | setLookahead k n => exact (setLookaheadM_answers s k n).map _
  | setLookaheadForAll n => exact (Answers.foldlM (fun b a => setLookaheadM_answers b a n) _ _).map _
  | lookaheadToTarget k n => exact (lookaheadToTargetM_answers s k n).map _
  | lookaheadToTargetMulti m => exact (Answers.foldlM (fun b a => lookaheadToTargetM_answers b _ _) _ _).map _
  | revealToTarget k n => exact (revealM_answers s k n).map _
  | revealToTargetMulti m => exact (revealMultiM_answers s m).map _
  | revealNextSpk k => exact (revealNextM_answers s k).map _
  | revealAndReserveNextSpk k => exact ((revealNextM_answers s k).bind fun x => Answers.refl _).map _
  | nextUnusedSpk k => exact (nextUnusedM_answers s k).map _
  | reserveNextUnusedSpk k => exact ((nextUnusedM_answers s k).bind fun x => Answers.refl _).map _
  | markUsed k i => exact Answers.refl _
  | unmarkUsed k i => exact Answers.refl _
  | scanTxout o x => exact scanTxoutM_answers s o x
  | scan l => exact scanM_answers s l
  | applyAdditions a => exact (revealMultiM_answers s a).map _

theorem runM_answers [DecidableEq D] (ops : List (Op K D)) (s : KeychainIndex K D) :
    Answers (s.runFromM .debug ops) (s.runFromM .release ops) := by
  induction ops generalizing s with
  | nil => exact Answers.refl _
  | cons op l ih =>
    unfold runFromM
    exact (stepM_answers s op).bind fun r => (ih r.1).bind fun r' => Answers.refl _

end KeychainIndex
end Verif
