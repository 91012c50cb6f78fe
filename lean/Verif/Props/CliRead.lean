import Verif.Spec.CliRead
import Verif.Lemmas.MachineIndex3
import Verif.Lemmas.Machine
import Verif.Props.Cli
import Verif.Props.CreateTx
import Verif.Props.KeychainListing

/-!
# C72: the commands that print tell the truth about the wallet
-/

set_option linter.unusedSectionVars false

namespace Verif.Cli
open Verif Verif.CoinSelect Verif.Planner Verif.Spec Verif.Props

section Listing
variable {K D P T A : Type} [LinearOrder K] [DescriptorOps D] [DecidableEq D] [LinearOrder P] [ChainPosition P] [LawfulChainPosition P]
  [LinearOrder T] [AsTransaction T] [LawfulTx T]

theorem isConfirmed_iff (f : FullTxOut P) : (ChainPosition.height f.chainPosition).isConfirmed = true ↔ InBlock f := by
  unfold InBlock ConfirmedAt
  cases ChainPosition.height f.chainPosition <;> simp [TxHeight.isConfirmed]

theorem balance_fold (b : Build) : ∀ (l : List ((K × Nat) × FullTxOut P)) (s : Nat × Nat),
    l.foldlM (balanceCmdStep b) s =
      (b.sumU 64 s.1 ((l.filter fun e => decide (InBlock e.2)).map fun e => e.2.txout.value)).bind fun c =>
      (b.sumU 64 s.2 ((l.filter fun e => decide (¬ InBlock e.2)).map fun e => e.2.txout.value)).map fun u => (c, u)
  | [], s => rfl
  | e :: l, s => by
    rw [List.foldlM_cons]
    by_cases h : InBlock e.2
    · have h' := (isConfirmed_iff e.2).2 h
      rw [List.filter_cons_of_pos (by simpa using h), List.filter_cons_of_neg (by simpa using h), List.map_cons, Build.sumU]
      unfold balanceCmdStep
      rw [if_pos h']
      cases b.unsigned 64 ((s.1 : Int) + e.2.txout.value) with
      | none => rfl
      | some c => exact balance_fold b l (c, s.2)
    · have h' : ¬ (ChainPosition.height e.2.chainPosition).isConfirmed = true := fun hc => h ((isConfirmed_iff e.2).1 hc)
      rw [List.filter_cons_of_neg (by simpa using h), List.filter_cons_of_pos (by simpa using h), List.map_cons, Build.sumU]
      unfold balanceCmdStep
      rw [if_neg h']
      cases b.unsigned 64 ((s.2 : Int) + e.2.txout.value) with
      | none =>
        cases b.sumU 64 s.1 (List.map (fun e => e.2.txout.value) (List.filter (fun e => decide (InBlock e.2)) l)) <;> rfl
      | some c => exact balance_fold b l (s.1, c)

/-- **C72** `Balance` prints two numbers: what the unspent outputs in a block are worth, and what the other unspent outputs are worth.
A debug build panics if one of them exceeds a `u64`; a release build prints it modulo 2^64. -/
theorem C72_balance_exact (t : Tracker K D P T) (so : SpendOrder) :
    let c := valueOf ((t.fullUtxos so).filter fun e => decide (InBlock e.2))
    let u := valueOf ((t.fullUtxos so).filter fun e => decide (¬ InBlock e.2))
    runBalanceCmd .debug t so = (if c < 2 ^ 64 ∧ u < 2 ^ 64 then some (c, u) else none) ∧
    runBalanceCmd .release t so = some (c % 2 ^ 64, u % 2 ^ 64) := by
  unfold runBalanceCmd valueOf
  rw [balance_fold, balance_fold, Build.sumU_debug _ _ (by positivity), Build.sumU_debug _ _ (by positivity),
    Build.sumU_release _ _ (by positivity), Build.sumU_release _ _ (by positivity)]
  simp only [Nat.zero_add]
  refine ⟨?_, rfl⟩
  generalize (List.map (fun e => e.2.txout.value) (List.filter (fun e => decide (InBlock e.2)) (t.fullUtxos so))).sum = c
  generalize (List.map (fun e => e.2.txout.value) (List.filter (fun e => decide (¬ InBlock e.2)) (t.fullUtxos so))).sum = u
  by_cases hc : c < 2 ^ 64 <;> by_cases hu : u < 2 ^ 64 <;> simp only [hc, hu, if_true, if_false, and_true, true_and, and_false] <;> rfl

/-- **C72** the numbers printed, in terms of the categories of `KeychainTracker::balance` (C39), whatever is trusted: "confirmed"
includes the immature coinbase outputs -/
theorem C72_balance_categories (t : Tracker K D P T) (so : SpendOrder) (trust : K → Bool) (b : Balance) (hb : t.balance so trust = some b)
    (c u : Nat) (h : runBalanceCmd .debug t so = some (c, u)) :
    c = b.confirmed + b.immature ∧ u = b.trustedPending + b.untrustedPending := by
  have h1 := C39_buckets t so trust b hb .immature
  have h2 := C39_buckets t so trust b hb .trustedPending
  have h3 := C39_buckets t so trust b hb .untrustedPending
  have h4 := C39_buckets t so trust b hb .confirmed
  simp only [Balance.at] at h1 h2 h3 h4
  have hx := (C72_balance_exact t so).1
  rw [h] at hx
  split at hx
  · cases hx
    rw [h1, h2, h3, h4]
    generalize t.fullUtxos so = l
    generalize tipOf t = tip
    have key : ∀ (β γ : Bucket) (p : FullTxOut P → Prop) [DecidablePred p], β ≠ γ →
        (∀ (k : K) f, p f ↔ bucketOf tip trust k f = β ∨ bucketOf tip trust k f = γ) →
        valueOf (l.filter fun e => decide (p e.2)) =
          valueOf (l.filter fun e => decide (bucketOf tip trust e.1.1 e.2 = β)) +
          valueOf (l.filter fun e => decide (bucketOf tip trust e.1.1 e.2 = γ)) := by
      intro β γ p _ hne hp
      unfold valueOf
      induction l with
      | nil => rfl
      | cons e l ih =>
        have := hp e.1.1 e.2
        by_cases hβ : bucketOf tip trust e.1.1 e.2 = β
        · have hγ : ¬ bucketOf tip trust e.1.1 e.2 = γ := fun hc => hne (hβ.symm.trans hc)
          have hpe : p e.2 := this.2 (.inl hβ)
          rw [List.filter_cons_of_pos (by simpa using hpe), List.filter_cons_of_pos (by simpa using hβ),
            List.filter_cons_of_neg (by simpa using hγ), List.map_cons, List.map_cons, List.sum_cons, List.sum_cons, ih]
          omega
        · by_cases hγ : bucketOf tip trust e.1.1 e.2 = γ
          · have hpe : p e.2 := this.2 (.inr hγ)
            rw [List.filter_cons_of_pos (by simpa using hpe), List.filter_cons_of_neg (by simpa using hβ),
              List.filter_cons_of_pos (by simpa using hγ), List.map_cons, List.map_cons, List.sum_cons, List.sum_cons, ih]
            omega
          · have hpe : ¬ p e.2 := fun hc => (this.1 hc).elim hβ hγ
            rw [List.filter_cons_of_neg (by simpa using hpe), List.filter_cons_of_neg (by simpa using hβ),
              List.filter_cons_of_neg (by simpa using hγ), ih]
    have hb1 : ∀ (k : K) (f : FullTxOut P), InBlock f ↔ bucketOf tip trust k f = .confirmed ∨ bucketOf tip trust k f = .immature := by
      intro k f
      unfold InBlock ConfirmedAt bucketOf
      cases ChainPosition.height f.chainPosition with
      | unconfirmed => cases trust k <;> simp
      | confirmed c =>
        simp only [TxHeight.confirmed.injEq, exists_eq', true_iff]
        cases f.isOnCoinbase && decide (tip + 1 < c + 100) <;> simp
    have hb2 : ∀ (k : K) (f : FullTxOut P),
        ¬ InBlock f ↔ bucketOf tip trust k f = .trustedPending ∨ bucketOf tip trust k f = .untrustedPending := by
      intro k f
      rw [hb1 k f]
      cases bucketOf tip trust k f <;> simp
    exact ⟨key .confirmed .immature InBlock (by decide) hb1,
      key .trustedPending .untrustedPending (fun f => ¬ InBlock f) (by decide) hb2⟩
  · cases hx

/-- **C72** what is printed does not depend on the iteration order of the hash sets -/
theorem C72_balance_deterministic (t : Tracker K D P T) (ht : t.Reachable) (so so' : SpendOrder) (b : Build) :
    runBalanceCmd b t so = runBalanceCmd b t so' := by
  obtain ⟨h1, h2⟩ := C39_full_utxos t ht so
  obtain ⟨h1', h2'⟩ := C39_full_utxos t ht so'
  have hp : (t.fullUtxos so).Perm (t.fullUtxos so') := by
    rw [List.perm_ext_iff_of_nodup (List.Nodup.of_map _ h2) (List.Nodup.of_map _ h2')]
    rintro ⟨⟨k, i⟩, f⟩
    rw [h1, h1']
  have e1 := C72_balance_exact t so
  have e2 := C72_balance_exact t so'
  have hv : ∀ p : (K × Nat) × FullTxOut P → Bool, valueOf ((t.fullUtxos so).filter p) = valueOf ((t.fullUtxos so').filter p) := by
    intro p
    exact ((hp.filter p).map _).sum_eq
  rw [hv, hv] at e1
  cases b
  · exact e1.1.trans e2.1.symm
  · exact e1.2.trans e2.2.symm

/-! ### `Txout list` -/

theorem printAll_ok {α β : Type} (line : α → Option β) : ∀ l : List α, (printAll line l).2 = true ↔ ∀ x ∈ l, (line x).isSome = true
  | [] => by simp [printAll]
  | x :: l => by
    unfold printAll
    cases h : line x with
    | none => simp [h]
    | some y => simp [h, printAll_ok line l]

theorem printAll_all {α β : Type} (line : α → Option β) : ∀ l : List α, (printAll line l).2 = true →
    (printAll line l).1.map some = l.map line
  | [], _ => rfl
  | x :: l, h => by
    unfold printAll at *
    cases hx : line x with
    | none => rw [hx] at h; cases h
    | some y =>
      rw [hx] at h
      simp only [List.map_cons, printAll_all line l h, hx]

theorem printAll_prefix {α β : Type} (line : α → Option β) : ∀ l : List α,
    ∃ n, n ≤ l.length ∧ (printAll line l).1.map some = (l.take n).map line ∧
      ((printAll line l).2 = false → ∃ x, l[n]? = some x ∧ line x = none)
  | [] => ⟨0, by simp, rfl, fun h => by cases h⟩
  | x :: l => by
    unfold printAll
    cases hx : line x with
    | none => exact ⟨0, by simp, rfl, fun _ => ⟨x, rfl, hx⟩⟩
    | some y =>
      obtain ⟨n, h1, h2, h3⟩ := printAll_prefix line l
      exact ⟨n + 1, by simpa using h1, by simp [h2, hx], by simpa using h3⟩

theorem fullUtxos_filter (t : Tracker K D P T) (so : SpendOrder) :
    t.fullUtxos so = (t.fullTxouts so).filter fun e => e.2.spentBy.isNone := rfl

/-- **C72** which outputs `Txout list` lists: exactly the outputs of the wallet (in its chain, recorded under a script of a keychain)
that the flags ask for, each once -/
theorem C72_txo_listed (t : Tracker K D P T) (ht : t.Reachable) (so : SpendOrder) (f : TxoFlags) :
    (∀ k i o, ((k, i), o) ∈ txoListed t so f ↔ WalletOutput t so k i o ∧ Wanted f o) ∧
    ((txoListed t so f).map fun e => e.2.outpoint).Nodup := by
  obtain ⟨h1, h2⟩ := C39_full_txouts t ht so
  have hsub : (txoListed t so f).Sublist (t.fullTxouts so) := by
    obtain ⟨a, b, c, d⟩ := f
    unfold txoListed txoChosen
    cases a <;> cases b <;> cases c <;> cases d <;> dsimp only <;>
      first
      | exact List.Sublist.refl _
      | exact List.filter_sublist
      | exact List.filter_sublist.trans List.filter_sublist
  refine ⟨?_, h2.sublist (hsub.map _)⟩
  intro k i o
  have hin : (ChainPosition.height o.chainPosition).isConfirmed = true ↔ InBlock o := isConfirmed_iff o
  have hw : ((k, i), o) ∈ t.fullTxouts so ↔ WalletOutput t so k i o := h1 k i o
  obtain ⟨a, b, c, d⟩ := f
  unfold Wanted
  have hs : o.spentBy.isSome = true ↔ o.spentBy ≠ none := by cases o.spentBy <;> simp
  have hn : o.spentBy.isNone = true ↔ o.spentBy = none := by cases o.spentBy <;> simp
  have hni : (!(ChainPosition.height o.chainPosition).isConfirmed) = true ↔ ¬ InBlock o := by rw [← hin]; simp
  unfold txoListed txoChosen
  simp only [fullUtxos_filter]
  cases a <;> cases b <;> cases c <;> cases d <;>
    simp only [List.mem_filter, hw, hin, hs, hn, hni, reduceCtorEq, forall_const, IsEmpty.forall_iff, true_and, and_true, and_assoc]

/-- **C72** `Txout list` prints one line for each of them, in order, with index, value, outpoint, address and the transaction that spends
it; it panics exactly if a listed output has a script without an address, after printing the lines before it -/
theorem C72_txo_lines (addr : Script → Option A) (t : Tracker K D P T) (so : SpendOrder) (f : TxoFlags) :
    ((runTxoCmd addr t so f).2 = true ↔ ∀ e ∈ txoListed t so f, (addr e.2.txout.spk).isSome = true) ∧
    ∃ n, (runTxoCmd addr t so f).1.map (fun x => (x.index, x.value, x.outpoint, some x.address, x.spentBy)) =
        ((txoListed t so f).take n).map (fun e => (e.1, e.2.txout.value, e.2.outpoint, addr e.2.txout.spk, e.2.spentBy)) ∧
      ((runTxoCmd addr t so f).2 = true → n = (txoListed t so f).length) ∧
      ((runTxoCmd addr t so f).2 = false → ∃ e, (txoListed t so f)[n]? = some e ∧ addr e.2.txout.spk = none) := by
  unfold runTxoCmd
  generalize txoListed t so f = l
  constructor
  · rw [printAll_ok]
    simp
  · induction l with
    | nil => exact ⟨0, rfl, fun _ => rfl, fun h => by cases h⟩
    | cons e l ih =>
      unfold printAll
      cases ha : addr e.2.txout.spk with
      | none => exact ⟨0, rfl, fun h => (by cases h), fun _ => ⟨e, rfl, ha⟩⟩
      | some a =>
        obtain ⟨n, h1, h2, h3⟩ := ih
        simp only [Option.map_some]
        refine ⟨n + 1, ?_, fun h => by simp [h2 h], by simpa using h3⟩
        rw [List.map_cons, h1, List.take_succ_cons, List.map_cons, ha]

/-- **C72** the lines of `txout list --unspent --confirmed` add up to the first number of `Balance`, those of
`txout list --unspent --unconfirmed` to the second -/
theorem C72_lines_add_up (addr : Script → Option A) (t : Tracker K D P T) (so : SpendOrder) (c u : Nat)
    (h : runBalanceCmd .debug t so = some (c, u)) :
    ((runTxoCmd addr t so ⟨true, false, true, false⟩).2 = true →
      ((runTxoCmd addr t so ⟨true, false, true, false⟩).1.map TxoLine.value).sum = c) ∧
    ((runTxoCmd addr t so ⟨true, false, false, true⟩).2 = true →
      ((runTxoCmd addr t so ⟨true, false, false, true⟩).1.map TxoLine.value).sum = u) := by
  have hx := (C72_balance_exact t so).1
  rw [h] at hx
  have gen : ∀ f : TxoFlags, (runTxoCmd addr t so f).2 = true →
      ((runTxoCmd addr t so f).1.map TxoLine.value).sum = valueOf (txoListed t so f) := by
    intro f hf
    obtain ⟨-, n, h1, h2, -⟩ := C72_txo_lines addr t so f
    rw [h2 hf, List.take_length] at h1
    have := congrArg (List.map fun x : (K × Nat) × Nat × OutPoint × Option A × Option (P × Txid) => x.2.1) h1
    rw [List.map_map, List.map_map] at this
    exact congrArg List.sum this
  split at hx
  · cases hx
    refine ⟨fun hf => (gen _ hf).trans ?_, fun hf => (gen _ hf).trans ?_⟩
    · unfold txoListed txoChosen
      refine congrArg valueOf (List.filter_congr fun e _ => ?_)
      rw [Bool.eq_iff_iff, isConfirmed_iff]; simp
    · unfold txoListed txoChosen
      refine congrArg valueOf (List.filter_congr fun e _ => ?_)
      rw [Bool.eq_iff_iff, decide_eq_true_eq, ← isConfirmed_iff]; simp
  · cases hx

end Listing

section Addresses
variable {D Key Ak Sec XPrv Msg T P A : Type} [DescriptorOps D] [DecidableEq D] [LinearOrder P] [ChainPosition P] [LawfulChainPosition P]
  [LinearOrder T] [AsTransaction T] [LawfulTx T] [DecidableEq Key]

theorem revealedM_small (b : Build) (s : KeychainIndex Keychain D) (k : Keychain) (h : numRevealed s k ≤ u32Max) :
    s.revealedSpksOfKeychainM b k = s.revealedSpksOfKeychain k := by
  rw [← KeychainIndex.revealedM_debug]
  cases b with
  | debug => rfl
  | release =>
    obtain ⟨l, hl⟩ := (C59_revealed_spks s k).1 h
    rw [← KeychainIndex.revealedM_debug] at hl
    rw [hl, KeychainIndex.revealedM_answers s k l hl]

/-- the keychain `address list` lists -/
def listedKeychain (change : Bool) : Keychain := if change then .internal else .external

/-- **C72** `Address list` prints, in ascending order of the index, exactly the scripts of the keychain that the wallet has revealed and
watches, each with its address and whether it is used; it panics exactly if one of them has no address.  (As long as fewer than 2^32
indices are revealed.) -/
theorem C72_address_list (b : Build) (addr : Script → Option A) (t : Tracker Keychain D P T) (change : Bool)
    (hn : numRevealed t.txoutIndex (listedKeychain change) ≤ u32Max) :
    ∃ lines done, runAddressList b addr t change = some (lines, done) ∧
      (done = true ↔ ∀ i spk, Knows t (listedKeychain change) i spk → (addr spk).isSome = true) ∧
      lines.Pairwise (fun x y => x.1 < y.1) ∧
      (∀ i a used, (i, a, used) ∈ lines → ∃ spk, Knows t (listedKeychain change) i spk ∧ addr spk = some a ∧
        used = t.txoutIndex.inner.isUsed (toLex (listedKeychain change, i))) ∧
      (done = true → ∀ i spk, Knows t (listedKeychain change) i spk → ∃ a used, addr spk = some a ∧ (i, a, used) ∈ lines) := by
  obtain ⟨l, hl⟩ := (C59_revealed_spks t.txoutIndex (listedKeychain change)).1 hn
  obtain ⟨h1, h2⟩ := (C59_revealed_spks t.txoutIndex (listedKeychain change)).2 l hl
  have hk : ∀ i spk, (i, spk) ∈ l ↔ Knows t (listedKeychain change) i spk := by
    intro i spk
    rw [h1]
    unfold Knows numRevealed
    refine and_congr ?_ Iff.rfl
    cases t.txoutIndex.lastRevealedIndex (listedKeychain change) with
    | none => simp
    | some j => simp [Nat.lt_succ_iff]
  have hrun : runAddressList b addr t change = some (printAll (fun e => (addr e.2).map fun a =>
      (e.1, a, t.txoutIndex.inner.isUsed (toLex (listedKeychain change, e.1)))) l) := by
    unfold runAddressList
    show (t.txoutIndex.revealedSpksOfKeychainM b (listedKeychain change)).map _ = _
    rw [revealedM_small b _ _ hn, hl]
    rfl
  obtain ⟨n, -, p2, -⟩ := printAll_prefix (fun e : Nat × Script => (addr e.2).map fun a =>
      (e.1, a, t.txoutIndex.inner.isUsed (toLex (listedKeychain change, e.1)))) l
  have pok := printAll_ok (fun e : Nat × Script => (addr e.2).map fun a =>
      (e.1, a, t.txoutIndex.inner.isUsed (toLex (listedKeychain change, e.1)))) l
  have pall := printAll_all (fun e : Nat × Script => (addr e.2).map fun a =>
      (e.1, a, t.txoutIndex.inner.isUsed (toLex (listedKeychain change, e.1)))) l
  revert hrun p2 pok pall
  generalize printAll _ l = r
  intro hrun p2 pok pall
  refine ⟨r.1, r.2, hrun, ?_, ?_, ?_, ?_⟩
  · rw [pok]
    constructor
    · intro h i spk hi
      have := h (i, spk) ((hk i spk).2 hi)
      simpa using this
    · rintro h ⟨i, spk⟩ hx
      simpa using h i spk ((hk i spk).1 hx)
  · have hp : (l.take n).Pairwise (fun x y => x.1 < y.1) := h2.sublist (List.take_sublist _ _)
    have he : r.1.map Prod.fst = (l.take n).map Prod.fst := by
      have gen : ∀ (xs : List (Nat × A × Bool)) (ys : List (Nat × Script)), xs.map some = ys.map (fun e => (addr e.2).map fun a =>
          (e.1, a, t.txoutIndex.inner.isUsed (toLex (listedKeychain change, e.1)))) → xs.map Prod.fst = ys.map Prod.fst := by
        intro xs
        induction xs with
        | nil => intro ys h; cases ys with
          | nil => rfl
          | cons y ys => cases h
        | cons x xs ih => intro ys h; cases ys with
          | nil => cases h
          | cons y ys =>
            rw [List.map_cons, List.map_cons, List.cons.injEq] at h
            rw [List.map_cons, List.map_cons, ih ys h.2]
            cases ha : addr y.2 with
            | none => rw [ha] at h; cases h.1
            | some a =>
              rw [ha] at h
              have h1 := Option.some.inj h.1
              rw [h1]
      exact gen _ _ p2
    have hp' := List.pairwise_map.2 hp
    rw [← he] at hp'
    exact List.pairwise_map.1 hp'
  · intro i a used hm
    have : some (i, a, used) ∈ r.1.map some := List.mem_map_of_mem hm
    rw [p2, List.mem_map] at this
    obtain ⟨⟨i', spk⟩, hx, he⟩ := this
    cases ha : addr spk with
    | none => rw [ha] at he; cases he
    | some a' =>
      rw [ha] at he
      simp only [Option.map_some, Option.some.injEq, Prod.mk.injEq] at he
      obtain ⟨rfl, rfl, rfl⟩ := he
      exact ⟨spk, (hk _ _).1 (List.mem_of_mem_take hx), ha, rfl⟩
  · intro hd i spk hi
    have hx := (hk i spk).2 hi
    have := (pok.1 hd) _ hx
    cases ha : addr spk with
    | none => rw [ha] at this; cases this
    | some a =>
      refine ⟨a, t.txoutIndex.inner.isUsed (toLex (listedKeychain change, i)), rfl, ?_⟩
      have hm : some (i, a, t.txoutIndex.inner.isUsed (toLex (listedKeychain change, i))) ∈ r.1.map some := by
        rw [pall hd, List.mem_map]
        exact ⟨(i, spk), hx, by simp [ha]⟩
      obtain ⟨y, hy, he⟩ := List.mem_map.1 hm
      cases he
      exact hy

/-- **C72** `Address index` prints one line for each keychain with a revealed script: the last index revealed -/
theorem C72_address_index (t : Tracker Keychain D P T) :
    (∀ k i, (k, i) ∈ runAddressIndex t ↔ t.txoutIndex.lastRevealedIndex k = some i) ∧ ((runAddressIndex t).map Prod.fst).Nodup :=
  ⟨fun _ _ => OMap.mem_entries, (OMap.keys_sorted _).imp fun h => ne_of_lt h⟩

/-- **C72** as long as no action loses anything (C54), every address ever shown, in this or an earlier run of the program, is known to the
wallet, and so listed by `Address list` -/
theorem C72_shown_is_known (env : Env D Key Ak Sec XPrv Msg T) {cp : Nat} {ext : D} {int : Option D} {base : Tracker Keychain D P T}
    (hd : Derivable ext) (hd' : ∀ d ∈ int, Derivable d) (hb : initTracker cp ext int = some base) {w : World D P T}
    (h : LosslessRun env base w) (k : Keychain) (i : Nat) (spk : Script) (hs : Event.shown k i spk ∈ w.trace) :
    Knows w.tracker k i spk := by
  obtain ⟨pre, post, e⟩ := List.append_of_mem hs
  have hbase := initTracker_base hd hd' hb
  obtain ⟨t', h1, h2⟩ := (C54_recoverable env hd hd' hb h).1 pre post k i spk e
  obtain ⟨t2, g1, -, g3⟩ := C54_in_sync env hd hd' hb h
  have hdisk : diskOf w.trace = diskOf pre ++ diskOf (Event.shown k i spk :: post) := by
    rw [e]; unfold diskOf; rw [List.filterMap_append]
  rw [hdisk, replay_append, h1, Option.bind_some] at g1
  have ok := reload_ok hbase h1
  have hk2 := knows_grew ok.reach (ok.derivable hbase) (replay_grew g1) h2
  unfold Knows KeychainIndex.lastRevealedIndex SpkIndex.spkAtIndex at *
  rw [g3.2.1, g3.2.2.2.1] at hk2
  exact hk2

end Addresses
/-! ### instances, and a limit of the claim -/

/-- a coinbase output in the block of the tip -/
def exMinedOps : List (Tracker.Op Keychain TxHeight CliTx) :=
  [.nextUnusedSpk .external, .insertCheckpoint ⟨5, 105⟩ oC, .insertTx ⟨4⟩ (.confirmed 5) oC]

def exMined : CliTracker := ((exBase.runFrom exMinedOps).map Prod.fst).getD exBase

theorem exMined_reachable : exMined.Reachable := by
  have h : (exBase.runFrom exMinedOps).isSome = true := by decide +kernel
  obtain ⟨r, hr⟩ := Option.isSome_iff_exists.1 h
  have : exMined = r.1 := by unfold exMined; rw [hr]; rfl
  rw [this]
  refine tracker_run_reachable (initTracker_reachable exBase_init) exMinedOps ?_ hr
  intro op hop
  simp only [exMinedOps, List.mem_cons, List.not_mem_nil, or_false] at hop
  rcases hop with rfl | rfl | rfl <;> trivial

/-- **C72, limit of the claim** "confirmed" is not what can be spent: the output of a coinbase in the block of the tip is printed as
confirmed, while `KeychainTracker::balance` has nothing confirmed and `balance_at` finds nothing to spend -/
theorem C72_confirmed_not_spendable : ∃ t : CliTracker, t.Reachable ∧ ∃ c b, runBalanceCmd .debug t soId = some (c, 0) ∧ 0 < c ∧
    t.chainGraph.chain.latestCheckpoint = some ⟨5, 105⟩ ∧
    t.balance soId (fun _ => true) = some b ∧ b.confirmed = 0 ∧ b.immature = c ∧ t.balanceAt soId 5 = some 0 := by
  refine ⟨exMined, exMined_reachable, 50000, ⟨50000, 0, 0, 0⟩, ?_⟩
  decide +kernel

/-- `C72_txo_lines`, `C72_lines_add_up`: two coins, one of them confirmed; the address of a script is the script itself -/
example : ((runTxoCmd some exWallet soId ⟨true, false, false, false⟩).1.map fun x => (x.index, x.value, x.outpoint.txid, x.address, x.spentBy)).length = 2 := by
  decide +kernel

/-- … without addresses for the scripts nothing is printed and the command panics -/
example : (runTxoCmd (fun _ => (none : Option Nat)) exWallet soId ⟨false, false, false, false⟩).2 = false := by decide +kernel

/-- `C72_address_list` -/
example : (runAddressList .release some exWallet false).map (fun r => (r.1.map (·.1), r.2)) = some ([0, 1], true) := by decide +kernel

/-- `C72_shown_is_known`: an address is shown, the program crashes, another one is shown -/
example : (match runActs exStart [.address .next true, .restart, .address .new true] with
    | some w => (shownAt w.trace 1).isSome && (shownAt w.trace 3).isSome
    | none => false) = true := by decide +kernel

/-- the five names of the option, and what they stand for -/
def algoNames : List (String × Algo) :=
  [("largest-first", .largestFirst), ("smallest-first", .smallestFirst), ("oldest-first", .oldestFirst), ("newest-first", .newestFirst),
    ("bnb", .branchAndBound)]

/-- **C60** the coin selection option: a string selects an algorithm iff it is that algorithm's name in the table, every other string
is refused, and an algorithm is printed as the name that selects it -/
theorem C60_algo_option (s : String) (a : Algo) :
    (Algo.ofString s = some a ↔ (s, a) ∈ algoNames) ∧ (Algo.ofString s = some a ↔ s = a.display) := by
  constructor
  · constructor
    · intro h
      unfold Algo.ofString at h
      split at h <;> cases h <;> simp [algoNames]
    · intro h
      simp only [algoNames, List.mem_cons, Prod.mk.injEq, List.not_mem_nil, or_false] at h
      rcases h with ⟨rfl, rfl⟩ | ⟨rfl, rfl⟩ | ⟨rfl, rfl⟩ | ⟨rfl, rfl⟩ | ⟨rfl, rfl⟩ <;> rfl
  constructor
  · intro h
    unfold Algo.ofString at h
    split at h <;> cases h <;> rfl
  · rintro rfl
    cases a <;> rfl

example : Algo.ofString "bnb" = some .branchAndBound ∧ Algo.ofString "BNB" = none := ⟨rfl, rfl⟩

end Verif.Cli
