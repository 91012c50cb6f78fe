import Verif.Lemmas.Machine
import Verif.Props.Tracker

/-!
# Property C67: amounts on machine integers

What `calculate_fee`, `sent_and_received`, `net_value`, `balance`, `balance_at` and the sums of `Balance` return when amounts are
`u64`/`i64`, in a debug build (overflow panics) and in a release build (overflow wraps around).
-/

set_option linter.unusedSectionVars false

namespace Verif.Props
open Verif Verif.Spec Verif.Build

section
variable {T : Type} [AsTransaction T] [LawfulTx T] [LinearOrder T]

theorem prevOuts_exists (g : TxGraph T) : ∀ (ins : List OutPoint), (∀ i ∈ ins, g.getTxout i ≠ none) → ∃ prevs, PrevOuts g ins prevs
  | [], _ => ⟨[], .nil⟩
  | i :: ins, h => by
    obtain ⟨o, ho⟩ := Option.ne_none_iff_exists'.1 (h i (by simp))
    obtain ⟨prevs, hp⟩ := prevOuts_exists g ins (fun j hj => h j (List.mem_cons_of_mem _ hj))
    exact ⟨o :: prevs, .cons ho hp⟩

theorem prevOuts_filterMap {g : TxGraph T} : ∀ {ins : List OutPoint} {prevs : List TxOut}, PrevOuts g ins prevs →
    ins.filterMap g.getTxout = prevs
  | [], _, h => by cases h; rfl
  | i :: ins, _, h => by
    cases h with
    | cons h1 h2 => rw [List.filterMap_cons_some h1, prevOuts_filterMap h2]

theorem none_mem_inputs (g : TxGraph T) (ins : List OutPoint) :
    none ∈ (ins.map fun i => (g.getTxout i).map fun o => SpkIndex.asI64 o.value) ↔ ∃ i ∈ ins, g.getTxout i = none := by
  rw [List.mem_map]
  constructor
  · rintro ⟨i, hi, h⟩; exact ⟨i, hi, Option.map_eq_none_iff.1 h⟩
  · rintro ⟨i, hi, h⟩; exact ⟨i, hi, by rw [h]; rfl⟩

theorem filterMap_inputs (g : TxGraph T) (ins : List OutPoint) :
    (ins.map fun i => (g.getTxout i).map fun o => SpkIndex.asI64 o.value).filterMap id =
      ((ins.filterMap g.getTxout).map TxOut.value).map SpkIndex.asI64 := by
  induction ins with
  | nil => rfl
  | cons i ins ih =>
    rw [List.map_cons]
    cases h : g.getTxout i with
    | none => rw [List.filterMap_cons_none (by rfl), List.filterMap_cons_none h, ih]
    | some o => rw [List.filterMap_cons_some (b := SpkIndex.asI64 o.value) (by rfl), List.filterMap_cons_some h, ih]; rfl

/-- **C67** whatever the values, in either build: if `calculate_fee` answers, then it reports an unknown fee exactly if some spent
output is unknown (a coinbase transaction has fee 0), and a fee it reports fits in an `i64` and differs from the exact one, the
value of the spent outputs minus that of the created ones, by a multiple of 2^64.  So it is the exact fee if that fits. -/
theorem C67_fee (b : Build) (g : TxGraph T) (tx : Tx) (r : Option Int) (h : g.calculateFeeM b tx = some r) :
    (tx.isCoinBase = true → r = some 0) ∧
    (tx.isCoinBase = false → (r = none ↔ ∃ i ∈ tx.input, g.getTxout i = none) ∧
      ∀ f prevs, r = some f → PrevOuts g tx.input prevs →
        ∀ due : Int, due = ((prevs.map TxOut.value).sum : Nat) - ((tx.output.map TxOut.value).sum : Nat) →
        -2 ^ 63 ≤ f ∧ f < 2 ^ 63 ∧ (2 ^ 64 : Int) ∣ due - f ∧ (-2 ^ 63 ≤ due ∧ due < 2 ^ 63 → f = due)) := by
  unfold TxGraph.calculateFeeM at h
  cases hc : tx.isCoinBase with
  | true => rw [hc] at h; cases h; exact ⟨fun _ => rfl, fun hn => by cases hn⟩
  | false =>
    rw [hc] at h
    simp only [Bool.false_eq_true, if_false] at h
    refine ⟨(fun hn => by cases hn), fun _ => ?_⟩
    cases hs : b.sumOptI 0 (tx.input.map fun i => (g.getTxout i).map fun o => SpkIndex.asI64 o.value) with
    | none => rw [hs] at h; cases h
    | some q =>
      rw [hs, Option.bind_some] at h
      obtain ⟨h1, h2⟩ := sumOptI_spec _ _ _ hs
      rw [none_mem_inputs] at h1
      cases q with
      | none => cases h; exact ⟨by rw [← h1], fun f prevs hf => by cases hf⟩
      | some insum =>
        simp only at h
        cases ho : b.sumI 0 (tx.output.map fun o => SpkIndex.asI64 o.value) with
        | none => rw [ho] at h; cases h
        | some outsum =>
          rw [ho, Option.bind_some, Option.map_eq_some_iff] at h
          obtain ⟨f, hf, rfl⟩ := h
          refine ⟨⟨(fun hn => by cases hn), (fun hn => by have := h1.2 hn; cases this)⟩, ?_⟩
          intro f' prevs hff hp
          cases hff
          obtain ⟨r1, r2, r3⟩ := i64_spec hf
          have d1 := h2 insum rfl
          have d2 := sumI_spec _ _ _ ho
          rw [filterMap_inputs, prevOuts_filterMap hp] at d1
          have d3 := sum_asI64_dvd (prevs.map TxOut.value)
          have d4 := sum_asI64_dvd (tx.output.map TxOut.value)
          rw [sum_cast] at d3 d4
          have hm : (tx.output.map fun o => SpkIndex.asI64 o.value) = (tx.output.map TxOut.value).map SpkIndex.asI64 := by
            rw [List.map_map]; rfl
          rw [hm] at d2
          intro due hdue
          have hd : (2 ^ 64 : Int) ∣ due - f := by
            obtain ⟨a1, e1⟩ := r3
            obtain ⟨a2, e2⟩ := d1
            obtain ⟨a3, e3⟩ := d2
            obtain ⟨a4, e4⟩ := d3
            obtain ⟨a5, e5⟩ := d4
            refine ⟨a4 + a2 - a5 - a3 + a1, ?_⟩
            rw [hdue]
            linarith
          exact ⟨r1, r2, hd, fun he => eq_of_dvd_range hd he ⟨r1, r2⟩⟩

/-- **C67** `calculate_fee` always answers in a release build, and in either build it gives the exact answer (that of C21) if the
values of the known spent outputs and those of the created outputs both add up to less than 2^63 satoshis (92 billion bitcoins) -/
theorem C67_fee_answers (g : TxGraph T) (tx : Tx) :
    g.calculateFeeM .release tx ≠ none ∧
    ∀ b, ((tx.input.filterMap g.getTxout).map TxOut.value).sum < 2 ^ 63 → (tx.output.map TxOut.value).sum < 2 ^ 63 →
      g.calculateFeeM b tx = some (g.calculateFee tx) := by
  constructor
  · unfold TxGraph.calculateFeeM
    cases tx.isCoinBase with
    | true => simp
    | false =>
      simp only [Bool.false_eq_true, if_false]
      cases hs : Build.release.sumOptI 0 (tx.input.map fun i => (g.getTxout i).map fun o => SpkIndex.asI64 o.value) with
      | none => exact absurd hs (sumOptI_release_ne _ _)
      | some q =>
        rw [Option.bind_some]
        cases q with
        | none => simp
        | some insum =>
          simp only
          cases ho : Build.release.sumI 0 (tx.output.map fun o => SpkIndex.asI64 o.value) with
          | none => exact absurd ho (sumI_release_ne _ _)
          | some outsum =>
            rw [Option.bind_some]
            intro hn
            rw [Option.map_eq_none_iff] at hn
            exact i64_release_ne _ hn
  · intro b hin hout
    have hM : ∃ r, g.calculateFeeM b tx = some r ∧ (tx.isCoinBase = false →
        r = none ∨ ∀ prevs, PrevOuts g tx.input prevs →
        r = some (((prevs.map TxOut.value).sum : Nat) - ((tx.output.map TxOut.value).sum : Nat) : Int)) := by
      unfold TxGraph.calculateFeeM
      cases tx.isCoinBase with
      | true => exact ⟨some 0, by simp, fun h => by cases h⟩
      | false =>
        simp only [Bool.false_eq_true, if_false]
        obtain ⟨s1, s2⟩ := asI64_list_small _ hin
        obtain ⟨s3, s4⟩ := asI64_list_small _ hout
        have hm : (tx.output.map fun o => SpkIndex.asI64 o.value) = (tx.output.map TxOut.value).map SpkIndex.asI64 := by
          rw [List.map_map]; rfl
        rw [sumOptI_fits b _ 0 (by rw [filterMap_inputs, s2, abs_zero, zero_add]; exact_mod_cast hin), Option.bind_some,
          filterMap_inputs, s1]
        by_cases hn : none ∈ (tx.input.map fun i => (g.getTxout i).map fun o => SpkIndex.asI64 o.value)
        · rw [if_pos hn]; exact ⟨none, rfl, fun _ => .inl rfl⟩
        · rw [if_neg hn]
          simp only
          rw [hm, sumI_fits b _ 0 (by rw [s4, abs_zero, zero_add]; exact_mod_cast hout), s3, Option.bind_some,
            sum_cast, sum_cast, i64_fits b (by push_cast; omega) (by push_cast; omega)]
          refine ⟨_, rfl, fun _ => .inr fun prevs hp => ?_⟩
          rw [prevOuts_filterMap hp]
          simp
    obtain ⟨r, hr, hex⟩ := hM
    obtain ⟨c1, c2⟩ := C67_fee b g tx r hr
    rw [hr]
    congr 1
    cases hc : tx.isCoinBase with
    | true =>
      rw [c1 hc]
      exact ((C21_fee_exact g tx 0).2 (.inl ⟨hc, rfl⟩)).symm
    | false =>
      obtain ⟨c3, -⟩ := c2 hc
      by_cases hk : ∃ i ∈ tx.input, g.getTxout i = none
      · rw [c3.2 hk]
        cases hg : g.calculateFee tx with
        | none => rfl
        | some f =>
          rcases (C21_fee_exact g tx f).1 hg with ⟨h1, -⟩ | ⟨-, prevs, hp, -⟩
          · rw [hc] at h1; cases h1
          · obtain ⟨i, hi, hn⟩ := hk
            have : ∀ {ins : List OutPoint} {prevs : List TxOut}, PrevOuts g ins prevs → ∀ i ∈ ins, g.getTxout i ≠ none := by
              intro ins prevs hp
              induction hp with
              | nil => intro i hi; cases hi
              | cons h1 _ ih =>
                intro i hi
                rcases List.mem_cons.1 hi with rfl | hi
                · rw [h1]; simp
                · exact ih i hi
            exact absurd hn (this hp i hi)
      · obtain ⟨prevs, hp⟩ := prevOuts_exists g tx.input (fun i hi hn => hk ⟨i, hi, hn⟩)
        rcases hex hc with hr | hr
        · exact absurd (c3.1 hr) hk
        · rw [hr prevs hp]
          symm
          rw [C21_fee_exact]
          refine .inr ⟨hc, prevs, hp, ?_⟩
          have e1 := sum_cast (prevs.map TxOut.value)
          have e2 := sum_cast (tx.output.map TxOut.value)
          rw [List.map_map] at e1 e2
          rw [← e1, ← e2]; rfl

end

section
variable {I : Type} [LinearOrder I]

theorem foldl_sent (x : SpkIndex I) : ∀ (l : List OutPoint) (n : Nat),
    l.foldl (fun s o => match x.txout o with | some e => s + e.2.value | none => s) n =
      n + (l.filterMap fun o => (x.txout o).map fun e => e.2.value).sum
  | [], n => by simp
  | o :: l, n => by
    rw [List.foldl_cons, foldl_sent x l]
    cases h : x.txout o with
    | none => rw [List.filterMap_cons_none (by rw [h]; rfl)]
    | some e => rw [List.filterMap_cons_some (b := e.2.value) (by rw [h]; rfl), List.sum_cons]; simp only []; omega

theorem foldl_received (x : SpkIndex I) : ∀ (l : List TxOut) (n : Nat),
    l.foldl (fun r o => if (x.indexOfSpk o.spk).isSome then r + o.value else r) n =
      n + ((l.filter fun o => (x.indexOfSpk o.spk).isSome).map fun o => o.value).sum
  | [], n => by simp
  | o :: l, n => by
    rw [List.foldl_cons, foldl_received x l, List.filter_cons]
    by_cases h : (x.indexOfSpk o.spk).isSome = true
    · rw [if_pos h, if_pos h, List.map_cons, List.sum_cons]; omega
    · rw [if_neg h, if_neg h]

/-- **C67** `sent_and_received` on `u64`: with the exact amounts of C31, a debug build panics exactly if one of them does not fit in
a `u64` and returns them otherwise; a release build returns them modulo 2^64 -/
theorem C67_sent_received (x : SpkIndex I) (tx : Tx) (s r : Nat) (h : x.sentAndReceived tx = (s, r)) :
    x.sentAndReceivedM .debug tx = (if s < 2 ^ 64 ∧ r < 2 ^ 64 then some (s, r) else none) ∧
    x.sentAndReceivedM .release tx = some (s % 2 ^ 64, r % 2 ^ 64) := by
  have e1 : (x.sentAndReceived tx).1 = 0 + _ := foldl_sent x tx.input 0
  have e2 : (x.sentAndReceived tx).2 = 0 + _ := foldl_received x tx.output 0
  rw [h, Nat.zero_add] at e1 e2
  have h1 := e1.symm
  have h2 := e2.symm
  simp only at h1 h2
  unfold SpkIndex.sentAndReceivedM
  rw [sumU_debug _ _ (by norm_num), sumU_debug _ _ (by norm_num), sumU_release _ _ (by norm_num),
    sumU_release _ _ (by norm_num), h1, h2]
  simp only [Nat.zero_add, Option.bind_some, Option.map_some, and_true]
  by_cases a : s < 2 ^ 64 <;> by_cases c : r < 2 ^ 64 <;> simp only [a, c, if_true, if_false, and_self, and_true, and_false,
    Option.bind_some, Option.bind_none, Option.map_some, Option.map_none]

/-- **C67** `net_value` on machine integers, with the exact amounts of C31: a value it returns fits in an `i64` and differs from
received minus sent by a multiple of 2^64, so it is received minus sent if that fits; a release build always answers, a debug
build does if the amounts are below 2^63 -/
theorem C67_net_value (x : SpkIndex I) (tx : Tx) (s r : Nat) (h : x.sentAndReceived tx = (s, r)) :
    (∀ b v, x.netValueM b tx = some v → -2 ^ 63 ≤ v ∧ v < 2 ^ 63 ∧ (2 ^ 64 : Int) ∣ ((r : Int) - s) - v ∧
      (-2 ^ 63 ≤ (r : Int) - s ∧ (r : Int) - s < 2 ^ 63 → v = (r : Int) - s)) ∧
    x.netValueM .release tx ≠ none ∧
    (s < 2 ^ 63 → r < 2 ^ 63 → ∀ b, x.netValueM b tx = some ((r : Int) - s)) := by
  obtain ⟨hd, hr⟩ := C67_sent_received x tx s r h
  have hmod : ∀ n : Nat, (2 ^ 64 : Int) ∣ (n : Int) - SpkIndex.asI64 (n % 2 ^ 64) := by
    intro n
    obtain ⟨k, hk⟩ := asI64_dvd (n % 2 ^ 64)
    have h1 : ((n % 2 ^ 64 : Nat) : Int) = (n : Int) - 2 ^ 64 * ((n / 2 ^ 64 : Nat) : Int) := by
      have := Nat.mod_add_div n (2 ^ 64)
      omega
    rw [h1] at hk
    exact ⟨k + ((n / 2 ^ 64 : Nat) : Int), by linarith⟩
  refine ⟨?_, ?_, ?_⟩
  · intro b v hv
    have key : ∃ a c : Nat, b.i64 (SpkIndex.asI64 c - SpkIndex.asI64 a) = some v ∧ (2 ^ 64 : Int) ∣ (s : Int) - SpkIndex.asI64 a ∧
        (2 ^ 64 : Int) ∣ (r : Int) - SpkIndex.asI64 c := by
      unfold SpkIndex.netValueM at hv
      cases b with
      | debug =>
        rw [hd] at hv
        by_cases hf : s < 2 ^ 64 ∧ r < 2 ^ 64
        · rw [if_pos hf, Option.bind_some] at hv
          exact ⟨s, r, hv, asI64_dvd s, asI64_dvd r⟩
        · rw [if_neg hf] at hv; cases hv
      | release =>
        rw [hr, Option.bind_some] at hv
        exact ⟨_, _, hv, hmod s, hmod r⟩
    obtain ⟨a, c, hi, ⟨k1, e1⟩, ⟨k2, e2⟩⟩ := key
    obtain ⟨r1, r2, ⟨k3, e3⟩⟩ := i64_spec hi
    have hdv : (2 ^ 64 : Int) ∣ ((r : Int) - s) - v := ⟨k2 - k1 + k3, by linarith⟩
    exact ⟨r1, r2, hdv, fun he => eq_of_dvd_range hdv he ⟨r1, r2⟩⟩
  · unfold SpkIndex.netValueM
    rw [hr, Option.bind_some]
    exact i64_release_ne _
  · intro hs hr' b
    have hM : x.sentAndReceivedM b tx = some (s, r) := by
      cases b with
      | debug => rw [hd, if_pos ⟨by omega, by omega⟩]
      | release => rw [hr, Nat.mod_eq_of_lt (by omega), Nat.mod_eq_of_lt (by omega)]
    unfold SpkIndex.netValueM
    rw [hM, Option.bind_some, asI64_small hs, asI64_small hr', i64_fits b (by omega) (by omega)]

end

section
variable {K D P T : Type} [LinearOrder K] [DescriptorOps D] [DecidableEq D] [LinearOrder P] [ChainPosition P]
  [LawfulChainPosition P] [AsTransaction T] [LawfulTx T] [LinearOrder T]

theorem le_u64Max (x : Nat) : x ≤ u64Max ↔ x < 2 ^ 64 := by
  rw [show u64Max = 18446744073709551615 from rfl]; norm_num; omega

theorem le_u32Max (x : Nat) : x ≤ u32Max ↔ x < 2 ^ 32 := by
  rw [show u32Max = 4294967295 from rfl]; norm_num; omega

theorem addU64_debug (x y : Nat) : Build.debug.unsigned 64 ((x : Int) + y) = addU64 x y := by
  rw [unsigned_add_debug]
  unfold addU64
  exact if_congr (le_u64Max _).symm rfl rfl

theorem isMature_debug (f : FullTxOut P) (h : Nat) : f.isMatureM .debug h = f.isMature h := by
  unfold FullTxOut.isMatureM FullTxOut.isMature
  cases f.isOnCoinbase with
  | false => simp only [Bool.false_eq_true, if_false]
  | true =>
    simp only [if_true]
    cases ChainPosition.height f.chainPosition with
    | unconfirmed => rfl
    | confirmed c =>
      simp only
      have : Build.debug.unsigned 32 (((h - c : Nat) : Int) + 1) = addU32 (h - c) 1 := by
        have := unsigned_add_debug (bits := 32) (x := h - c) (y := 1)
        rw [Nat.cast_one] at this
        rw [this]
        unfold addU32
        exact if_congr (le_u32Max _).symm rfl rfl
      rw [this]
      cases addU32 (h - c) 1 <;> rfl

theorem isSpendable_debug (f : FullTxOut P) (h : Nat) : f.isSpendableAtM .debug h = f.isSpendableAt h := by
  unfold FullTxOut.isSpendableAtM FullTxOut.isSpendableAt
  rw [isMature_debug]
  cases f.isMature h with
  | none => rfl
  | some m =>
    simp only [Option.map_some, Option.bind_eq_bind, Option.bind_some]
    cases m with
    | false => rfl
    | true =>
      simp only [Bool.not_true, Bool.false_eq_true, if_false]
      by_cases hp : ChainPosition.height f.chainPosition > TxHeight.confirmed h
      · rw [if_pos hp, if_pos hp]; rfl
      · rw [if_neg hp, if_neg hp]
        cases f.spentBy <;> rfl

theorem balanceStep_debug (ls : Option Nat) (trust : K → Bool) (b : Balance) (e : (K × Nat) × FullTxOut P) :
    Tracker.balanceStepM .debug ls trust b e = Tracker.balanceStep ls trust b e := by
  unfold Tracker.balanceStepM Tracker.balanceStep
  simp only [addU64_debug, isMature_debug]
  cases ChainPosition.height e.2.chainPosition with
  | unconfirmed =>
    simp only
    cases trust e.1.1 with
    | true => simp only [if_true]; cases addU64 b.trustedPending e.2.txout.value <;> rfl
    | false => simp only [Bool.false_eq_true, if_false]; cases addU64 b.untrustedPending e.2.txout.value <;> rfl
  | confirmed c =>
    simp only
    cases e.2.isOnCoinbase with
    | false => simp only [Bool.false_eq_true, if_false]; cases addU64 b.confirmed e.2.txout.value <;> rfl
    | true =>
      simp only [if_true]
      cases ls with
      | none => rfl
      | some h =>
        simp only [Option.bind_some, Option.bind_eq_bind]
        cases e.2.isMature h with
        | none => rfl
        | some m =>
          simp only [Option.bind_some]
          cases m with
          | true => simp only [if_true]; cases addU64 b.confirmed e.2.txout.value <;> rfl
          | false => simp only [Bool.false_eq_true, if_false]; cases addU64 b.immature e.2.txout.value <;> rfl

/-- **C67** the balances of C39 and C40 are those of a debug build -/
theorem C67_balance_debug (t : Tracker K D P T) (so : SpendOrder) (trust : K → Bool) (height : Nat) (b c : Balance) :
    t.balanceM .debug so trust = t.balance so trust ∧ t.balanceAtM .debug so height = t.balanceAt so height ∧
    b.trustedSpendableM .debug = b.trustedSpendable ∧ b.totalM .debug = b.total ∧ b.addM .debug c = b.add c := by
  refine ⟨?_, ?_, ?_, ?_, ?_⟩
  · unfold Tracker.balanceM Tracker.balance
    have : ∀ ls, Tracker.balanceStepM .debug ls trust = Tracker.balanceStep (P := P) ls trust := by
      intro ls; funext b e; exact balanceStep_debug _ _ _ _
    rw [this]
  · unfold Tracker.balanceAtM Tracker.balanceAt
    congr 1
    funext s e
    simp only [isSpendable_debug, addU64_debug]
    cases e.2.isSpendableAt height with
    | none => rfl
    | some m => cases m <;> rfl
  · exact addU64_debug _ _
  · unfold Balance.totalM Balance.total
    simp only [Build.sumU, addU64_debug]
    simp only [Option.bind_eq_bind]
    congr 1
    funext x
    congr 1
    funext y
    cases addU64 y b.immature <;> rfl
  · unfold Balance.addM Balance.add
    simp only [addU64_debug]
    simp only [Option.bind_eq_bind]
    congr 1; funext i
    congr 1; funext t
    congr 1; funext u
    cases addU64 b.confirmed c.confirmed <;> rfl

theorem balanceStep_release {ls : Option Nat} {trust : K → Bool} {b : Balance} {e : (K × Nat) × FullTxOut P}
    (htip : ls.getD 0 < u32Max) (hls : (∃ c, ConfirmedAt e.2 c) → ls ≠ none) (hb : ∀ β, Balance.at b β < 2 ^ 64) :
    ∃ b', Tracker.balanceStepM .release ls trust b e = some b' ∧
      ∀ β, Balance.at b' β =
        (Balance.at b β + if bucketOf (ls.getD 0) trust e.1.1 e.2 = β then e.2.txout.value else 0) % 2 ^ 64 := by
  have q : ∀ n : Nat, n < 2 ^ 64 → n = (n + 0) % 2 ^ 64 := fun n hn => by
    rw [Nat.add_zero, Nat.mod_eq_of_lt hn]
  have q1 := q _ (hb .immature)
  have q2 := q _ (hb .trustedPending)
  have q3 := q _ (hb .untrustedPending)
  have q4 := q _ (hb .confirmed)
  unfold Tracker.balanceStepM
  simp only [unsigned_add_release, Option.map_some]
  unfold bucketOf
  cases hp : ChainPosition.height e.2.chainPosition with
  | unconfirmed =>
    simp only
    cases trust e.1.1 with
    | true =>
      simp only [if_true]
      refine ⟨_, rfl, fun β => ?_⟩
      cases β <;> simp only [Balance.at, reduceCtorEq, if_true, if_false] <;> assumption
    | false =>
      simp only [Bool.false_eq_true, if_false]
      refine ⟨_, rfl, fun β => ?_⟩
      cases β <;> simp only [Balance.at, reduceCtorEq, if_true, if_false] <;> assumption
  | confirmed c =>
    simp only
    cases hcb : e.2.isOnCoinbase with
    | false =>
      simp only [Bool.false_eq_true, if_false, Bool.false_and]
      refine ⟨_, rfl, fun β => ?_⟩
      cases β <;> simp only [Balance.at, reduceCtorEq, if_true, if_false] <;> assumption
    | true =>
      obtain ⟨tip, rfl⟩ := Option.ne_none_iff_exists'.1 (hls ⟨c, hp⟩)
      simp only [Option.getD_some] at htip
      have hm : e.2.isMatureM .release tip = some (!decide (tip - c + 1 < coinbaseMaturity)) := by
        unfold FullTxOut.isMatureM
        rw [hcb, hp]
        simp only [if_true]
        have := unsigned_add_fits (bits := 32) (x := tip - c) (y := 1) Build.release (by rw [← le_u32Max]; omega)
        rw [Nat.cast_one] at this
        rw [this]; rfl
      simp only [if_true, Option.bind_some, hm, Bool.true_and, Option.getD_some]
      unfold coinbaseMaturity
      by_cases hi : tip + 1 < c + 100
      · have hi' : tip - c + 1 < 100 := by omega
        simp only [hi, hi', decide_true, Bool.not_true, Bool.false_eq_true, if_false, if_true]
        refine ⟨_, rfl, fun β => ?_⟩
        cases β <;> simp only [Balance.at, reduceCtorEq, if_true, if_false] <;> assumption
      · have hi' : ¬ tip - c + 1 < 100 := by omega
        simp only [hi, hi', decide_false, Bool.not_false, Bool.false_eq_true, if_false, if_true]
        refine ⟨_, rfl, fun β => ?_⟩
        cases β <;> simp only [Balance.at, reduceCtorEq, if_true, if_false] <;> assumption

/-- **C67** a release build always answers `balance` if no confirmed transaction is above the tip (C14), and each category is the sum
of the values of its outputs (C39) modulo 2^64: it is right as long as the sum fits in a `u64` -/
theorem C67_balance_release (t : Tracker K D P T) (h : t.Reachable) (so : SpendOrder) (trust : K → Bool)
    (hc : ConfirmedBelowTip t.chainGraph.chain) (htip : tipOf t < u32Max) :
    ∃ b, t.balanceM .release so trust = some b ∧ ∀ β : Bucket, Balance.at b β =
      valueOf ((t.fullUtxos so).filter (fun e => decide (bucketOf (tipOf t) trust e.1.1 e.2 = β))) % 2 ^ 64 := by
  have hcp := confirmed_has_tip t h so hc
  unfold tipOf at htip ⊢
  unfold Tracker.balanceM
  generalize t.chainGraph.chain.latestCheckpoint.map BlockId.height = ls at *
  have gen : ∀ (l : List ((K × Nat) × FullTxOut P)) (b0 : Balance),
      (∀ e ∈ l, (∃ c, ConfirmedAt e.2 c) → ls ≠ none) → (∀ β, Balance.at b0 β < 2 ^ 64) →
      ∃ b, l.foldlM (Tracker.balanceStepM .release ls trust) b0 = some b ∧ ∀ β, Balance.at b β =
        (Balance.at b0 β + valueOf (l.filter (fun e => decide (bucketOf (ls.getD 0) trust e.1.1 e.2 = β)))) % 2 ^ 64 := by
    intro l
    induction l with
    | nil =>
      intro b0 _ hb
      refine ⟨b0, rfl, fun β => ?_⟩
      show Balance.at b0 β = (Balance.at b0 β + 0) % 2 ^ 64
      rw [Nat.add_zero, Nat.mod_eq_of_lt (hb β)]
    | cons e l ih =>
      intro b0 hl hb
      rw [List.foldlM_cons]
      obtain ⟨b1, hb1, q⟩ := balanceStep_release (trust := trust) (b := b0) htip (hl e (by simp)) hb
      rw [hb1]
      obtain ⟨b, hbb, q'⟩ := ih b1 (fun e' he' => hl e' (List.mem_cons_of_mem _ he')) (fun β => by
        rw [q β]; exact Nat.mod_lt _ (by norm_num))
      refine ⟨b, hbb, fun β => ?_⟩
      rw [q' β, q β, Nat.mod_add_mod, List.filter_cons]
      congr 1
      by_cases hβ : bucketOf (ls.getD 0) trust e.1.1 e.2 = β
      · rw [if_pos hβ, if_pos (by simpa using hβ)]
        unfold valueOf
        rw [List.map_cons, List.sum_cons]; omega
      · rw [if_neg hβ, if_neg (by simpa using hβ), Nat.add_zero]
  obtain ⟨b, hb, q⟩ := gen (t.fullUtxos so) Balance.zero hcp (fun β => by cases β <;> simp [Balance.at, Balance.zero])
  refine ⟨b, hb, fun β => ?_⟩
  rw [q β]
  cases β <;> simp [Balance.at, Balance.zero]

/-- **C67** the sums of `Balance` in a release build: modulo 2^64 -/
theorem C67_totals_release (a b : Balance) (ha : ∀ β, Balance.at a β < 2 ^ 64) :
    a.totalM .release = some ((a.immature + a.trustedPending + a.untrustedPending + a.confirmed) % 2 ^ 64) ∧
    a.trustedSpendableM .release = some ((a.confirmed + a.trustedPending) % 2 ^ 64) ∧
    ∃ c, a.addM .release b = some c ∧ ∀ β, Balance.at c β = (Balance.at a β + Balance.at b β) % 2 ^ 64 := by
  refine ⟨?_, ?_, ?_⟩
  · unfold Balance.totalM
    rw [sumU_release _ _ (show a.confirmed < 2 ^ 64 from ha .confirmed)]
    congr 2
    simp only [List.sum_cons, List.sum_nil]
    omega
  · unfold Balance.trustedSpendableM
    rw [unsigned_add_release]
  · unfold Balance.addM
    simp only [unsigned_add_release, Option.bind_some, Option.map_some]
    refine ⟨_, rfl, fun β => ?_⟩
    cases β <;> rfl

theorem isSpendable_release {f : FullTxOut P} {h : Nat} (hh : h < u32Max) :
    f.isSpendableAtM .release h = some (decide (f.isSpendableAt h = some true)) := by
  have hm : f.isMatureM .release h = some (decide (f.isMature h = some true)) := by
    unfold FullTxOut.isMatureM FullTxOut.isMature
    cases f.isOnCoinbase with
    | false => rfl
    | true =>
      simp only [if_true]
      cases ChainPosition.height f.chainPosition with
      | unconfirmed => rfl
      | confirmed c =>
        simp only
        have := unsigned_add_fits (bits := 32) (x := h - c) (y := 1) Build.release (by rw [← le_u32Max]; omega)
        rw [Nat.cast_one] at this
        have h2 : addU32 (h - c) 1 = some (h - c + 1) := addU32_ok (by omega)
        simp only [this, h2, Option.map_some, Option.bind_eq_bind, Option.bind_some, Option.pure_def, Option.some.injEq]
        cases decide (h - c + 1 < coinbaseMaturity) <;> rfl
  unfold FullTxOut.isSpendableAtM FullTxOut.isSpendableAt
  rw [hm]
  cases f.isMature h with
  | none => rfl
  | some m =>
    cases m with
    | false => rfl
    | true =>
      simp only [Option.map_some, Option.bind_eq_bind, Option.bind_some, decide_true, Bool.not_true, Bool.false_eq_true, if_false]
      by_cases hp : ChainPosition.height f.chainPosition > TxHeight.confirmed h
      · rw [if_pos hp, if_pos hp]; rfl
      · rw [if_neg hp, if_neg hp]
        cases f.spentBy with
        | none => rfl
        | some x => simp

/-- **C67** `balance_at` in a release build is the sum of the values of the outputs spendable at that height (C40) modulo 2^64 -/
theorem C67_balance_at_release (t : Tracker K D P T) (so : SpendOrder) (h : Nat) (hh : h < u32Max) :
    t.balanceAtM .release so h =
      some (valueOf ((t.fullTxouts so).filter (fun e => decide (e.2.isSpendableAt h = some true))) % 2 ^ 64) := by
  unfold Tracker.balanceAtM
  have gen : ∀ (l : List ((K × Nat) × FullTxOut P)) (s0 : Nat), s0 < 2 ^ 64 →
      l.foldlM (fun s e => (e.2.isSpendableAtM .release h).bind fun ok =>
        if ok then Build.release.unsigned 64 ((s : Int) + e.2.txout.value) else some s) s0 =
      some ((s0 + valueOf (l.filter (fun e => decide (e.2.isSpendableAt h = some true)))) % 2 ^ 64) := by
    intro l
    induction l with
    | nil =>
      intro s0 hs
      show some s0 = some ((s0 + 0) % 2 ^ 64)
      rw [Nat.add_zero, Nat.mod_eq_of_lt hs]
    | cons e l ih =>
      intro s0 hs
      rw [List.foldlM_cons, isSpendable_release hh, Option.bind_some, List.filter_cons]
      cases hd : decide (e.2.isSpendableAt h = some true) with
      | false =>
        simp only [Bool.false_eq_true, if_false]
        exact ih s0 hs
      | true =>
        rw [if_pos rfl, unsigned_add_release, if_pos rfl]
        have := ih ((s0 + e.2.txout.value) % 2 ^ 64) (Nat.mod_lt _ (by norm_num))
        rw [Option.bind_eq_bind, Option.bind_some, this, Nat.mod_add_mod]
        unfold valueOf
        rw [List.map_cons, List.sum_cons, Nat.add_assoc]
  rw [gen _ 0 (by norm_num), Nat.zero_add]

end

/-! ### Concrete cases -/

/-- spends an output worth 50 satoshis and creates one of 2^64 - 1 satoshis -/
def exOverpay : Tx := ⟨99, [⟨dId 0, 0⟩], [⟨2 ^ 64 - 1, 1⟩], by decide⟩

/-- spends an output worth 50 satoshis and creates two of 2^62 satoshis -/
def exHuge : Tx := ⟨99, [⟨dId 0, 0⟩], [⟨2 ^ 62, 1⟩, ⟨2 ^ 62, 1⟩], by decide⟩

/-- the hypotheses of `C67_fee` and `C67_fee_answers` are met, by known and unknown fees -/
example : exGraph.calculateFeeM .debug (demoTx 4) = some (some 8) ∧ exGraph.calculateFeeM .release (demoTx 4) = some (some 8) ∧
    (TxGraph.new [d 1] : TxGraph DemoTx).calculateFeeM .debug (demoTx 4) = some none ∧
    (((demoTx 4).input.filterMap exGraph.getTxout).map TxOut.value).sum = 48 := by decide +kernel

/-- **C67 (finding)** `calculate_fee` casts values with `as i64`: for a transaction that spends 50 satoshis and creates 2^64 - 1 it
reports a fee of 51 satoshis in either build, although its documentation has a negative number for an invalid transaction; and a
debug build panics on a transaction whose outputs add up to 2^63 -/
theorem C67_fee_overflow :
    (∀ b, exGraph.calculateFeeM b exOverpay = some (some 51)) ∧ exGraph.calculateFee exOverpay = some (50 - (2 ^ 64 - 1)) ∧
    exGraph.calculateFeeM .debug exHuge = none ∧ exGraph.calculateFeeM .release exHuge = some (some (50 - 2 ^ 63)) := by
  refine ⟨fun b => ?_, ?_, ?_, ?_⟩
  · cases b <;> decide +kernel
  all_goals decide +kernel

/-- one transaction that pays 2^63 satoshis to each of two scripts -/
structure BigTx where
deriving DecidableEq

instance : LinearOrder BigTx := LinearOrder.lift' (fun _ => (0 : Fin 1)) (fun _ _ _ => rfl)
instance : AsTransaction BigTx := ⟨fun _ => ⟨5, [⟨dExt, 0⟩], [⟨2 ^ 63, 0⟩, ⟨2 ^ 63, 4⟩], by decide⟩⟩
instance : LawfulTx BigTx := ⟨fun _ _ _ => rfl⟩

/-- a tracker with one keychain; its first scripts are 0 and 4 -/
def exBigFresh : Tracker (Fin 3) DemoDesc TxHeight BigTx :=
  ⟨(((KeychainIndex.empty : KeychainIndex (Fin 3) DemoDesc).step (.addKeychain 0 ⟨true, 0⟩)).map Prod.fst).getD KeychainIndex.empty,
    ChainGraph.empty⟩

/-- the calls: reveal two scripts, insert the transaction -/
def exBigOps : List (Tracker.Op (Fin 3) TxHeight BigTx) :=
  [.revealToTarget 0 1, .insertTx ⟨⟩ .unconfirmed ⟨HashOrder.id _, HashOrder.id _, soId⟩]

/-- the tracker after them -/
def exBig : Tracker (Fin 3) DemoDesc TxHeight BigTx := ((exBigFresh.runFrom exBigOps).map Prod.fst).getD exBigFresh

theorem exBig_reachable : exBig.Reachable := by
  have h0 : exBigFresh.Reachable := by
    unfold exBigFresh
    have hs : ((KeychainIndex.empty : KeychainIndex (Fin 3) DemoDesc).step (.addKeychain 0 ⟨true, 0⟩)).isSome = true := by
      decide +kernel
    cases h : (KeychainIndex.empty : KeychainIndex (Fin 3) DemoDesc).step (.addKeychain 0 ⟨true, 0⟩) with
    | none => rw [h] at hs; cases hs
    | some r => exact Tracker.Reachable.index (t := Tracker.empty) _ r .empty h
  have hs : (exBigFresh.runFrom exBigOps).isSome = true := by decide +kernel
  unfold exBig
  cases h : exBigFresh.runFrom exBigOps with
  | none => rw [h] at hs; cases hs
  | some r =>
    exact tracker_run_reachable (r := r) h0 exBigOps (by
      intro op hop
      simp only [exBigOps, List.mem_cons, List.not_mem_nil, or_false] at hop
      rcases hop with rfl | rfl <;> trivial) h

/-- **C67 (finding)** amounts are not checked when transactions are inserted: after one unconfirmed transaction that pays 2^63
satoshis to two scripts of the wallet, `balance` panics in a debug build and reports nothing at all in a release build -/
theorem C67_balance_overflow : exBig.Reachable ∧ valueOf (exBig.fullUtxos soId) = 2 ^ 64 ∧
    exBig.balanceM .debug soId (fun _ => true) = none ∧
    exBig.balanceM .release soId (fun _ => true) = some Balance.zero := by
  refine ⟨exBig_reachable, ?_, ?_, ?_⟩ <;> decide +kernel

/-- the hypotheses of `C67_balance_release` are met, and amounts of everyday size come out right in either build -/
example : exTr.balanceM .release soId (fun k => decide (k = 0)) = exTr.balance soId (fun k => decide (k = 0)) ∧
    (exTr.balance soId (fun k => decide (k = 0))).isSome = true ∧ tipOf exTr < u32Max ∧
    exTr.balanceAtM .release soId 8 = exTr.balanceAt soId 8 := by decide +kernel

end Verif.Props
