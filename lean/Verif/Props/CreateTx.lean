import Verif.Lemmas.CreateTx4
import Verif.Lemmas.Cli2
import Verif.Props.Cli

/-!
# C60: transactions created by `create_tx`
-/

set_option linter.unusedSectionVars false

namespace Verif.Cli
open Verif Verif.CoinSelect Verif.Planner Verif.Spec Verif.Props Verif.Cli.Spec
open Verif.CoinSelect.Spec (counterLen)

variable {D Key Ak Sec XPrv Msg T P : Type} [DescriptorOps D] [DecidableEq D] [LinearOrder P] [ChainPosition P] [LinearOrder T]
  [AsTransaction T] [DecidableEq Key] [LawfulChainPosition P] [LawfulTx T]
  {env : Env D Key Ak Sec XPrv Msg T} {luck : Luck} {t t' : Tracker Keychain D P T} {value : Nat} {payee : Script}
  {algo : Algo} {c : Created T}

/-- **C60** The weight of transactions that coin selection uses is that of BIP141. -/
theorem C60_weight_bip141 (scriptLen : Script → Nat) (tx : BuiltTx) : tx.weight scriptLen = txWeight scriptLen tx := weight_eq _ _

/-- **C60** A created transaction spends different unspent outputs of the wallet, for which there was a plan, signals
replaceability, has version 2, and its lock time is the height of the tip. -/
theorem C60_inputs (h : createTx env luck t value payee algo = some (t', .ok c)) (ht : t.Reachable) :
    (c.tx.input.map TxIn.previousOutput).Nodup ∧ c.tx.version = 2 ∧
    (match t.chainGraph.chain.latestCheckpoint with
      | some b => c.tx.lockTime = if b.height < 500000000 then b.height else 0
      | none => c.tx.lockTime = 0) ∧
    ∀ i ∈ c.tx.input, i.sequence = 0xFFFFFFFD ∧ ∃ k n out d p, WalletCoin t i.previousOutput k n out ∧
      t.txoutIndex.keychains.get k = some d ∧ env.plan d n = .ret (some p) := by
  obtain ⟨r⟩ := createTx_steps h
  refine ⟨?_, by rw [r.htx], ?_, ?_⟩
  · rw [r.map_ins TxIn.previousOutput (fun x => x.2.outpoint) (fun x w => rfl)]
    exact r.selected_nodup ht
  · rw [r.htx]
    simp only [lockTimeOf]
    cases t.chainGraph.chain.latestCheckpoint <;> rfl
  · intro i hi
    obtain ⟨j, hj⟩ := List.getElem?_of_mem hi
    obtain ⟨x, w, h1, h2, h3⟩ := r.ins_back hj
    obtain ⟨k, n, d, hc, hd, hp⟩ := r.selected_coin ht (List.mem_of_getElem? h1)
    subst h2
    refine ⟨?_, k, n, _, d, _, hc, hd, hp⟩
    show x.1.requiredSequence.getD _ = _
    unfold Plan.requiredSequence
    rw [(env_plan hp).2.1]; rfl

/-- **C60** The first output pays the recipient the requested amount.  There is at most one other output: the change, never
below the dust limit of the change descriptor, to a revealed script of the change keychain (the internal one if there is one),
which is the one reported. -/
theorem C60_outputs (h : createTx env luck t value payee algo = some (t', .ok c)) (ht : t.Reachable) (hd : AllDerivable t.txoutIndex)
    (hs : ValidSort (1 / 2) luck.sort) :
    (c.change = none ∧ c.tx.output = [⟨value, payee⟩]) ∨
    ∃ v spk additions k i d, c.change = some (additions, (k, i)) ∧ c.tx.output = [⟨value, payee⟩, ⟨v, spk⟩] ∧
      t.txoutIndex.nextUnusedSpk k = some (t'.txoutIndex, (i, spk), additions) ∧ t'.chainGraph = t.chainGraph ∧
      k = (if (t.txoutIndex.keychains.get .internal).isSome then .internal else .external) ∧
      t.txoutIndex.keychains.get k = some d ∧ env.dustValue d ≤ v ∧ Knows t' k i spk := by
  obtain ⟨r⟩ := createTx_steps h
  have hfin := r.finished hs
  cases hdv : r.nb.2.drainValue with
  | none =>
    left
    rw [r.hchange, r.htx, hdv]
    exact ⟨rfl, rfl⟩
  | some v =>
    right
    have hkn := nextUnused_knows (tracker_parts ht).1 hd r.hq
    have hkc : r.q.1.keychains = t.txoutIndex.keychains := (KeychainIndex.nextUnused_upd r.hq).kc
    have hidx : t'.txoutIndex = r.q.1 := congrArg Tracker.txoutIndex r.ht
    refine ⟨v, r.q.2.1.2, r.q.2.2, internalKeychain t, r.q.2.1.1, r.d, ?_, ?_, ?_, (congrArg Tracker.chainGraph r.ht).trans rfl, rfl, ?_, ?_, ?_⟩
    · rw [r.hchange, hdv]; rfl
    · rw [r.htx, hdv]; rfl
    · rw [hidx]; exact r.hq
    · rw [← hkc]; exact r.hd
    · have := ((C45_sound _ _ hfin).2 _ (r.best hs).1).drain v hdv
      exact this
    · unfold Knows
      rw [hidx]; exact hkn

theorem minFee_half (w : Nat) (hw : w ≤ 2 ^ 24) : CoinSelect.Spec.minFee w (1 / 2) = (w + 1) / 2 := by
  rw [minFee_exact (product_dyadic (k := 1) (j := 1) (by norm_num) (by norm_num) hw (by omega))]
  apply le_antisymm
  · apply Nat.ceil_le.2
    have h : w ≤ 2 * ((w + 1) / 2) := by omega
    have h' : (w : ℚ) ≤ 2 * (((w + 1) / 2 : Nat) : ℚ) := by exact_mod_cast h
    linarith
  · have h := Nat.le_ceil ((w : ℚ) * (1 / 2))
    have h' : (w : ℚ) ≤ 2 * ((⌈(w : ℚ) * (1 / 2)⌉₊ : Nat) : ℚ) := by linarith
    have h'' : w ≤ 2 * ⌈(w : ℚ) * (1 / 2)⌉₊ := by exact_mod_cast h'
    omega

theorem changeCost_half (o : Opt) (h : o.targetFeerate = 1 / 2) (hl : o.longTermFeerate = none)
    (hw : o.drainWeight + o.spendDrainWeight ≤ 2 ^ 24) :
    CoinSelect.Spec.changeCost o = ((o.drainWeight + o.spendDrainWeight) / 2 : Nat) := by
  unfold CoinSelect.Spec.changeCost CoinSelect.Spec.laterRate CoinSelect.Spec.wholeSats
  rw [hl, h]
  have e : CoinSelect.f32 (CoinSelect.Spec.product o.drainWeight (1 / 2) + CoinSelect.Spec.product o.spendDrainWeight (1 / 2))
      = ((o.drainWeight + o.spendDrainWeight : Nat) : ℚ) / 2 := by
    rw [product_dyadic (k := 1) (j := 1) (by norm_num) (by norm_num) (by omega : o.drainWeight ≤ 2 ^ 24) (by omega),
      product_dyadic (k := 1) (j := 1) (by norm_num) (by norm_num) (by omega : o.spendDrainWeight ≤ 2 ^ 24) (by omega)]
    have e2 := product_dyadic (r := 1 / 2) (k := 1) (j := 1) (by norm_num) (by norm_num) hw (by omega)
    rw [product_small hw] at e2
    have e3 : (o.drainWeight : ℚ) * (1 / 2) + (o.spendDrainWeight : ℚ) * (1 / 2) = ((o.drainWeight + o.spendDrainWeight : Nat) : ℚ) * (1 / 2) := by
      push_cast; ring
    rw [e3, e2]; ring
  simp only
  rw [e, if_pos (by positivity)]
  rw [Int.floor_eq_iff]
  constructor
  · have h2 : 2 * ((o.drainWeight + o.spendDrainWeight) / 2) ≤ o.drainWeight + o.spendDrainWeight := by omega
    have h3 : 2 * (((o.drainWeight + o.spendDrainWeight) / 2 : Nat) : ℚ) ≤ ((o.drainWeight + o.spendDrainWeight : Nat) : ℚ) := by exact_mod_cast h2
    have : (((((o.drainWeight + o.spendDrainWeight) / 2 : Nat) : Int)) : ℚ) = (((o.drainWeight + o.spendDrainWeight) / 2 : Nat) : ℚ) := by norm_cast
    rw [this]; linarith
  · have h2 : o.drainWeight + o.spendDrainWeight < 2 * ((o.drainWeight + o.spendDrainWeight) / 2) + 2 := by omega
    have h3 : ((o.drainWeight + o.spendDrainWeight : Nat) : ℚ) < 2 * (((o.drainWeight + o.spendDrainWeight) / 2 : Nat) : ℚ) + 2 := by exact_mod_cast h2
    have : (((((o.drainWeight + o.spendDrainWeight) / 2 : Nat) : Int)) : ℚ) = (((o.drainWeight + o.spendDrainWeight) / 2 : Nat) : ℚ) := by norm_cast
    rw [this]; linarith

/-- the numbers behind a created transaction -/
theorem Steps.numbers (r : Steps env luck t value payee algo t' c) (ht : t.Reachable) (hs : ValidSort (1 / 2) luck.sort) (hk : PlainKeys env) :
    ∃ (w0 : Nat) (cost : Int), (4 * outputSize env.scriptLen ⟨0, r.q.2.1.2⟩ + (160 + r.cw) ≤ 2 ^ 24 →
        cost = ((4 * outputSize env.scriptLen ⟨0, r.q.2.1.2⟩ + (160 + r.cw)) / 2 : Nat)) ∧
      (∃ excess, inputValue t c.tx = value + CoinSelect.Spec.minFee w0 (1 / 2) + excess ∧
        (.toDrain ∈ r.sel.strategies.map (·.1) ↔ value + CoinSelect.Spec.minFee (w0 + 4 * outputSize env.scriptLen ⟨0, r.q.2.1.2⟩) (1 / 2) + env.dustValue r.d ≤ inputValue t c.tx)) ∧
      ((c.change = none ∧ c.tx.output = [⟨value, payee⟩] ∧ txWeight env.scriptLen c.tx = w0 ∧ inputValue t c.tx = value + r.nb.2.fee ∧
        r.nb.2.waste = (r.nb.2.fee : Int) - CoinSelect.Spec.minFee w0 (1 / 2)) ∨
      ∃ v, c.change.isSome ∧ c.tx.output = [⟨value, payee⟩, ⟨v, r.q.2.1.2⟩] ∧
        txWeight env.scriptLen c.tx = w0 + 4 * outputSize env.scriptLen ⟨0, r.q.2.1.2⟩ ∧ inputValue t c.tx = value + v + r.nb.2.fee ∧
        r.nb.2.fee = CoinSelect.Spec.minFee (txWeight env.scriptLen c.tx) (1 / 2) ∧ env.dustValue r.d ≤ v ∧
        r.nb.2.waste = cost) ∧
      (∀ st, (.toFee, st) ∈ r.sel.strategies → st.waste = (inputValue t c.tx : Int) - value - CoinSelect.Spec.minFee w0 (1 / 2)) ∧
      (∀ st, (.toDrain, st) ∈ r.sel.strategies → st.waste = cost) ∧
      ∃ st, (.toFee, st) ∈ r.sel.strategies := by
  have hfin := r.finished hs
  have hbest := r.best hs
  have hw := r.weight_is ht hs hk
  have hopt := Steps.opt_eq env r.d value payee r.q.2.1.2 r.cw
  have hin : inputValue t c.tx = CoinSelect.Spec.value r.wv r.sel.selected := by rw [r.inputValue_eq ht, r.value_eq]
  have hkinds := C45_kinds _ _ hfin
  have hwaste := C45_waste _ _ hfin
  have hsound := (C45_sound _ _ hfin).2
  have hsplit := C45_split _ _ hfin
  unfold Steps.selector Selector.new at hkinds hwaste hsound hsplit
  rw [hopt] at hw hkinds hwaste hsound hsplit
  simp only at hkinds hwaste hsound hsplit
  set o : Opt := ⟨some value, 0, 1 / 2, none, 0, 4 * (10 + outputSize env.scriptLen ⟨value, payee⟩), 4 * outputSize env.scriptLen ⟨0, r.q.2.1.2⟩,
        160 + r.cw, env.dustValue r.d⟩ with ho
  set w0 := CoinSelect.Spec.weight o r.wv r.sel.selected with hw0
  have hiw : CoinSelect.Spec.inputWaste o r.wv r.sel.selected = 0 := by
    simp [CoinSelect.Spec.inputWaste, CoinSelect.Spec.laterRate, ho, CoinSelect.Spec.wholeSats, CoinSelect.Spec.product, f32_zero]
  have hcc : 4 * outputSize env.scriptLen ⟨0, r.q.2.1.2⟩ + (160 + r.cw) ≤ 2 ^ 24 → CoinSelect.Spec.changeCost o = ((4 * outputSize env.scriptLen ⟨0, r.q.2.1.2⟩ + (160 + r.cw)) / 2 : Nat) :=
    changeCost_half o rfl rfl
  have hws : ∀ x ∈ r.sel.strategies, x.2.waste = if x.2.drainValue.isSome then CoinSelect.Spec.changeCost o else (x.2.fee : Int) - CoinSelect.Spec.minFee w0 (1 / 2) := by
    intro x hx
    rw [hwaste x hx]
    unfold CoinSelect.Spec.stratWaste
    rw [hiw, ← hw0, show o.minAbsoluteFee = 0 from rfl, zero_add]
    rw [Nat.max_zero]
  have hdf : CoinSelect.Spec.drainFee o r.wv r.sel.selected = CoinSelect.Spec.minFee (w0 + 4 * outputSize env.scriptLen ⟨0, r.q.2.1.2⟩) (1 / 2) := by
    unfold CoinSelect.Spec.drainFee
    rw [← hw0]
    show max (CoinSelect.Spec.minFee (w0 + 4 * outputSize env.scriptLen ⟨0, r.q.2.1.2⟩) (1 / 2)) 0 = _
    simp
  obtain ⟨-, k2, -, k4, k5⟩ := hkinds
  refine ⟨w0, CoinSelect.Spec.changeCost o, hcc, ⟨r.sel.excess, ?_, ?_⟩, ?_, ?_, ?_, ?_⟩
  · rw [hin]
    simp only [Option.getD_some] at k5
    omega
  · rw [k4, hdf, hin]; rfl
  · have hb := hsound _ hbest.1
    have hwb := hws _ hbest.1
    have hbal := hb.balance
    cases hdv : r.nb.2.drainValue with
    | none =>
      left
      rw [hdv] at hw hwb hbal
      simp only [Option.isSome_none, Bool.false_eq_true, if_false, Nat.add_zero, Option.getD_none] at hw hwb hbal
      have hrec : r.nb.2.recipientValue = some value := by
        obtain ⟨rv, e1, e2, e3⟩ := hb.recipient
        have e4 : o.maxExtraTarget = 0 := rfl
        rw [e1]; congr 1; omega
      rw [hrec] at hbal
      simp only [Option.getD_some] at hbal
      refine ⟨by rw [r.hchange, hdv]; rfl, by rw [r.htx, hdv]; rfl, hw.symm, by rw [hin, hbal], hwb⟩
    | some v =>
      right
      rw [hdv] at hw hwb hbal
      simp only [Option.isSome_some, if_true, Option.getD_some] at hw hwb hbal
      have hrec : r.nb.2.recipientValue = some value := by
        obtain ⟨rv, e1, e2, e3⟩ := hb.recipient
        have e4 : o.maxExtraTarget = 0 := rfl
        rw [e1]; congr 1; omega
      rw [hrec] at hbal
      simp only [Option.getD_some] at hbal
      have hkind : r.nb.1 = .toDrain := by
        cases hkk : r.nb.1 with
        | toDrain => rfl
        | toFee =>
          have hm : (Kind.toFee, r.nb.2) ∈ r.sel.strategies := by rw [← hkk]; exact hbest.1
          have := ((hsplit r.nb.2).1 hm).2
          rw [hdv] at this; cases this
        | toRecipient =>
          have hm : (Kind.toRecipient, r.nb.2) ∈ r.sel.strategies := by rw [← hkk]; exact hbest.1
          obtain ⟨_, _, _, this⟩ := (hsplit r.nb.2).2.1 hm
          rw [hdv] at this; cases this
      have hm : (Kind.toDrain, r.nb.2) ∈ r.sel.strategies := by rw [← hkind]; exact hbest.1
      have hfee := ((hsplit r.nb.2).2.2 hm).2.2
      refine ⟨v, by rw [r.hchange, hdv]; rfl, by rw [r.htx, hdv]; rfl, hw.symm, by rw [hin, hbal], ?_, hb.drain v hdv, ?_⟩
      · rw [hfee, hdf, ← hw]
      · exact hwb
  · intro st hst
    obtain ⟨e1, e2⟩ := (hsplit st).1 hst
    have hbal := (hsound _ hst).balance
    simp only [e1, e2, Option.getD_some, Option.getD_none, Nat.add_zero] at hbal
    rw [hws _ hst]
    simp only [e2, Option.isSome_none, Bool.false_eq_true, if_false]
    rw [hin, hbal]; push_cast; ring
  · intro st hst
    obtain ⟨-, e2, -⟩ := (hsplit st).2.2 hst
    rw [hws _ hst]
    simp only [e2, if_true]
  · have := k2.2 rfl
    obtain ⟨⟨kk, st⟩, h1, h2⟩ := List.mem_map.1 this
    simp only at h2
    subst h2
    exact ⟨st, h1⟩

/-- **C60** No satoshi is lost: what the inputs are worth and the outputs do not pay is the fee.  For a transaction of weight up to
2^24 (a block is 4 000 000) it pays at least half a satoshi per weight unit of the signed transaction, and with a change output it is
the least such whole number. -/
theorem C60_fee (h : createTx env luck t value payee algo = some (t', .ok c)) (ht : t.Reachable) (hs : ValidSort (1 / 2) luck.sort)
    (hk : PlainKeys env) :
    ∃ fee, inputValue t c.tx = outputValue c.tx + fee ∧
      (txWeight env.scriptLen c.tx ≤ 2 ^ 24 → txWeight env.scriptLen c.tx ≤ 2 * fee ∧
        (c.change.isSome → fee = (txWeight env.scriptLen c.tx + 1) / 2)) := by
  obtain ⟨r⟩ := createTx_steps h
  obtain ⟨w0, cost, -, ⟨excess, h1, -⟩, h2, -⟩ := r.numbers ht hs hk
  refine ⟨r.nb.2.fee, ?_, ?_⟩
  · rcases h2 with ⟨-, e2, -, e4, -⟩ | ⟨v, -, e2, -, e4, -⟩
    · rw [e4]; unfold outputValue; rw [e2]; simp
    · rw [e4]; unfold outputValue; rw [e2]; simp
  intro hw
  refine ⟨?_, ?_⟩
  · rcases h2 with ⟨-, -, e3, e4, -⟩ | ⟨v, -, -, -, -, e5, -⟩
    · rw [minFee_half w0 (by omega)] at h1; omega
    · rw [minFee_half _ hw] at e5; omega
  · intro hc
    rcases h2 with ⟨e1, -⟩ | ⟨v, -, -, -, -, e5, -⟩
    · rw [e1] at hc; cases hc
    · rw [e5, minFee_half _ hw]

/-- **C60** When there is change: a change output is made only if it is not dust and making and spending it (half a satoshi per
weight unit) costs no more than the satoshis it saves; it is left out only if it would be dust or cost at least that much.  (For
weights up to 2^24: the transaction with a change output together with the input that spends it.) -/
theorem C60_change_decision (h : createTx env luck t value payee algo = some (t', .ok c)) (ht : t.Reachable)
    (hs : ValidSort (1 / 2) luck.sort) (hk : PlainKeys env) :
    ∃ d i spk plan w, t'.txoutIndex.keychains.get (internalKeychain t) = some d ∧
      (∃ additions, t.txoutIndex.nextUnusedSpk (internalKeychain t) = some (t'.txoutIndex, (i, spk), additions)) ∧
      env.plan d i = .ret (some plan) ∧ plan.expectedWeight env.lib = .ret w ∧
      ∃ w0, let outWeight := 4 * outputSize env.scriptLen ⟨0, spk⟩
        let cost := (outWeight + (160 + w)) / 2
        let saved := inputValue t c.tx - (value + (w0 + 1) / 2)
        txWeight env.scriptLen c.tx = w0 + (if c.change.isSome then outWeight else 0) ∧
        (w0 + outWeight + (160 + w) ≤ 2 ^ 24 →
        value + (w0 + 1) / 2 ≤ inputValue t c.tx ∧
        (c.change.isSome → cost ≤ saved ∧ value + (w0 + outWeight + 1) / 2 + env.dustValue d ≤ inputValue t c.tx) ∧
        (c.change = none →
          (saved ≤ cost ∨ inputValue t c.tx < value + (w0 + outWeight + 1) / 2 + env.dustValue d))) := by
  obtain ⟨r⟩ := createTx_steps h
  obtain ⟨w0, cost, h0, ⟨excess, h1, h1'⟩, h2, h3, h4, stf, h5⟩ := r.numbers ht hs hk
  have hbest := (r.best hs).2
  have hidx : t'.txoutIndex = r.q.1 := congrArg Tracker.txoutIndex r.ht
  refine ⟨r.d, r.q.2.1.1, r.q.2.1.2, r.plan, r.cw, by rw [hidx]; exact r.hd, ⟨r.q.2.2, by rw [hidx]; exact r.hq⟩, r.hplan, r.hcw, w0, ?_⟩
  simp only
  refine ⟨?_, ?_⟩
  · rcases h2 with ⟨e1, -, e3, -⟩ | ⟨v, e1, -, e3, -⟩
    · rw [e1, e3]; simp
    · rw [if_pos e1, e3]
  intro hw
  have h0 := h0 (by omega)
  rw [minFee_half w0 (by omega)] at h1 h2 h3
  rw [minFee_half (w0 + 4 * outputSize env.scriptLen ⟨0, r.q.2.1.2⟩) (by omega)] at h1'
  refine ⟨by omega, ?_, ?_⟩
  · intro hc
    rcases h2 with ⟨e1, -⟩ | ⟨v, -, -, e3, e4, e5, e6, e7⟩
    · rw [e1] at hc; cases hc
    · have := hbest _ h5
      rw [h3 _ h5, e7] at this
      rw [minFee_half _ (by omega)] at e5
      exact ⟨by omega, by omega⟩
  · intro hc
    rcases h2 with ⟨-, -, e3, e4, e5⟩ | ⟨v, e1, -⟩
    · by_cases hd : Kind.toDrain ∈ r.sel.strategies.map (·.1)
      · left
        obtain ⟨⟨kk, st⟩, m1, m2⟩ := List.mem_map.1 hd
        simp only at m2
        subst m2
        have := hbest _ m1
        rw [h4 _ m1, e5] at this
        omega
      · right
        rw [h1'] at hd
        omega
    · rw [hc] at e1; cases e1

/-- the arguments, script and control block of a completed script path plan -/
theorem complete_leaf {lib : Lib Key} {p : Plan Key Ak} {m : Material Key} {w : List Planner.Bytes}
    (h : p.tryComplete lib m = .ret (.complete w)) {s : Planner.Bytes} (hs : p.spend = .leafSpend s) :
    ∃ args cb, lib.controlBlock p.tr s = some cb ∧ w = args ++ [s, cb] := by
  unfold Plan.tryComplete at h
  simp only [hs] at h
  by_cases hu : p.template.filter (TemplateItem.unsatisfied m) = []
  · rw [if_pos hu] at h
    cases hw : Plan.witnessOf lib m p.template with
    | none => rw [hw] at h; cases h
    | some args =>
      rw [hw] at h
      cases hcb : lib.controlBlock p.tr s with
      | none => simp only [hcb] at h; cases h
      | some cb =>
        simp only [hcb, Out.ret.injEq, PlanState.complete.injEq] at h
        exact ⟨args, cb, rfl, h.symm⟩
  · rw [if_neg hu] at h; simp at h

/-- **C60** Every input is signed, over the transaction as created (without witnesses), the position of the input and the outputs
that the transaction spends.  A key path witness is one signature with the secret of a key of the wallet, tweaked by the script
tree; a script path witness unlocks a leaf of the descriptor. -/
theorem C60_witnesses (h : createTx env luck t value payee algo = some (t', .ok c)) (ht : t.Reachable) (j : Nat) (i : TxIn)
    (hj : c.tx.input[j]? = some i) :
    ∃ prevouts, prevouts.map some = (c.tx.input.map fun i => t.chainGraph.graph.getTxout i.previousOutput) ∧
      ∃ k n out d, WalletCoin t i.previousOutput k n out ∧ prevouts[j]? = some out ∧ t.txoutIndex.keychains.get k = some d ∧
      let cr := env.crypto (unsigned c.tx) j prevouts
      let tr := env.trAt d n
      (∃ ak ∈ env.assetKeys, ∃ hint s sec msg, env.canDerive ak tr.internalKey = some hint ∧ env.keymap ak = some s ∧
        Planner.Spec.secretFor cr s hint = some sec ∧ cr.keySpendHash = some msg ∧
        i.witness = [cr.signTweaked sec (env.lib.merkleRoot tr) msg]) ∨
      (∃ ms args cb msg, ms ∈ tr.leaves.map Prod.snd ∧ env.lib.controlBlock tr (env.lib.encode ms) = some cb ∧
        i.witness = args ++ [env.lib.encode ms, cb] ∧ cr.scriptSpendHash (env.lib.leafHash (env.lib.encode ms)) = some msg ∧
        ∀ (xonly : Key → Planner.Bytes) (ctx : Tapscript.Ctx), (∀ k, (xonly k).length = 32) → (∀ l ∈ tr.leaves, Planner.Spec.PlainLeaf l.2) →
          ctx.version = c.tx.version → Honest env xonly cr msg ctx →
          ∃ ms' args', i.witness = args' ++ [env.lib.encode ms', cb] ∧ ms' ∈ tr.leaves.map Prod.snd ∧ env.lib.encode ms' = env.lib.encode ms ∧
            Tapscript.Unlocks ctx (Tapscript.compile xonly ctx.hash160 ms') args') := by
  obtain ⟨r⟩ := createTx_steps h
  refine ⟨r.prevouts, r.prevouts_eq ht, ?_⟩
  obtain ⟨x, w, h1, h2, h3⟩ := r.ins_back hj
  obtain ⟨k, n, d, hc, hd, hp⟩ := r.selected_coin ht (List.mem_of_getElem? h1)
  rw [← r.unsigned_eq] at h3
  obtain ⟨f, hcomp, hcase⟩ := signInput_inv h3
  obtain ⟨p1, p2, p3, p4⟩ := env_plan hp
  subst h2
  refine ⟨k, n, _, d, hc, ?_, hd, ?_⟩
  · unfold Steps.prevouts; rw [List.getElem?_map, h1]; rfl
  simp only
  rcases hcase with ⟨hs, pk, htm, s, sec, msg, e1, e2, e3, e4⟩ | ⟨leaf, hs, msg, e3, e4⟩
  · left
    obtain ⟨q1, q2⟩ := C52_plan_keys_derive env.lib env.canDerive (env.trAt d n) env.assets x.1 hp pk (by rw [htm]; simp)
    have hkey := C52_try_complete_key env.lib env.canDerive (env.trAt d n) env.assets x.1 hp hs { schnorrSigs := f }
    have hik : pk.descriptorKey = (env.trAt d n).internalKey := by
      rcases planTr_cases hp with ⟨pk', hpk', e⟩ | ⟨_, b, dd, ms, af, tp, _, _, e, _⟩
      · rw [e] at htm
        simp only [List.cons.injEq, TemplateItem.sign.injEq, and_true] at htm
        rw [← htm]
        exact (findKey_spec hpk').1
      · rw [e] at hs; cases hs
    have hf := (e4 (env.trAt d n).internalKey _).2 ⟨hik.symm, rfl⟩
    simp only [hf] at hkey
    rw [hcomp] at hkey
    simp only [Out.ret.injEq, PlanState.complete.injEq] at hkey
    refine ⟨pk.assetKey, q1, pk.derivationHint, s, sec, msg, by rw [← hik]; exact q2, e1, e2, e3, ?_⟩
    rw [← p3]
    exact hkey
  · right
    obtain ⟨args, cb, hcb, hw⟩ := complete_leaf hcomp hs
    obtain ⟨ms, hms, hms'⟩ : ∃ ms, ms ∈ (env.trAt d n).leaves.map Prod.snd ∧ leaf = env.lib.encode ms := by
      obtain ⟨-, b, dd, ms, af, tp, e, e', -⟩ := C52_picks_smallest_leaf env.lib env.canDerive (env.trAt d n) env.assets x.1 hp leaf hs
      exact ⟨ms, by rw [e]; simp, e'⟩
    subst hms'
    rw [p3] at hcb
    refine ⟨ms, args, cb, msg, hms, hcb, hw, e3, ?_⟩
    intro xonly ctx hx hplain hver hon
    have hsig : ∀ k s, f k = some s → s.sig.length = 64 ∧ ctx.sigOk (xonly k) s.toVec = true := by
      intro k s hf
      obtain ⟨pk, a1, a2, ds, sec, a3, a4, rfl⟩ := e4 k s hf
      obtain ⟨-, q2⟩ := C52_plan_keys_derive env.lib env.canDerive (env.trAt d n) env.assets x.1 hp pk a1
      obtain ⟨b1, b2⟩ := hon _ _ _ _ _ q2 a3 a4
      rw [← a2]
      exact ⟨b1, b2⟩
    have gen : Planner.Spec.Genuine xonly ctx { schnorrSigs := f } := by
      refine ⟨fun k s hf => (hsig k s hf).1, fun k s hf => (hsig k s hf).2, ?_, ?_, ?_, ?_⟩ <;> (intro k s hf; cases hf)
    have meets : Planner.Spec.Meets ctx x.1.minVersion x.1.requiredLocktime x.1.requiredSequence := by
      refine ⟨?_, ?_, ?_⟩
      · intro v hv
        unfold Plan.minVersion at hv
        rw [p2] at hv
        cases hv
        rw [hver, r.htx]; show 1 ≤ 2; omega
      · intro l hl; unfold Plan.requiredLocktime at hl; rw [p1] at hl; cases hl
      · intro l hl; unfold Plan.requiredSequence at hl; rw [p2] at hl; cases hl
    obtain ⟨ms', cb', args', m1, m2, m3, m4⟩ := C52_witness_unlocks env.lib xonly hx env.canDerive (env.trAt d n) env.assets x.1 hplain hp _ hs
      ctx { schnorrSigs := f } gen meets w hcomp
    have he : env.lib.encode ms' = env.lib.encode ms ∧ cb' = cb := by
      rw [hw] at m3
      have := (List.append_inj' m3 rfl).2
      simp only [List.cons.injEq, and_true] at this
      exact ⟨this.1.symm, this.2.symm⟩
    refine ⟨ms', args', ?_, m1, he.1, m4⟩
    rw [← he.2]; exact m3

theorem sum_range_getD {α : Type} (dflt : α) (f : α → Nat) (l : List α) :
    ∑ i ∈ Finset.range l.length, f (l.getD i dflt) = (l.map f).sum := by
  induction l with
  | nil => rfl
  | cons a l ih =>
    rw [List.length_cons, Finset.sum_range_succ', List.map_cons, List.sum_cons, ← ih, Nat.add_comm]
    rfl

/-- **C60** With the means to sign, a plan for the change script and a change script to be had, `create_tx` does not panic, and
the only error is that of coin selection. -/
theorem C60_succeeds (ht : t.Reachable) (hd : AllDerivable t.txoutIndex) (hc : CanSign env) (hs : ValidSort (1 / 2) luck.sort)
    (q) (hq : t.txoutIndex.nextUnusedSpk (internalKeychain t) = some q) (d : D)
    (hkd : t.txoutIndex.keychains.get (internalKeychain t) = some d) (p : Plan Key Ak)
    (hp : env.plan d q.2.1.1 = .ret (some p)) :
    ∃ t' r, createTx env luck t value payee algo = some (t', r) ∧ ((∃ c, r = .ok c) ∨ ∃ e, r = .error (.selection e)) := by
  have hinv := KeychainIndex.reachable_inv (tracker_parts ht).1 hd
  obtain ⟨planned, hpl⟩ := plannedUtxos_ret hc (t := t) (t.fullUtxos luck.spend) (by
    rintro ⟨⟨k, i⟩, f⟩ he
    obtain ⟨⟨x, hx⟩, -⟩ := ((C39_full_utxos t ht luck.spend).1 k i f).1 he
    exact found_known hinv hx)
  have hmemp : ∀ x ∈ sortCandidates algo planned, ∃ d i, env.plan d i = .ret (some x.1) := by
    intro x hx
    obtain ⟨k, i, d, -, -, h3⟩ := ((plannedUtxos_spec hpl).2 x.1 x.2).1 ((sortCandidates_perm algo planned).subset hx)
    exact ⟨d, i, h3⟩
  obtain ⟨wv, hwv⟩ := mapM_isSome (f := weighted env) (l := sortCandidates algo planned) (by
    intro x hx
    obtain ⟨d, i, h⟩ := hmemp x hx
    obtain ⟨w, hw⟩ := expectedWeight_ret hc h
    unfold weighted
    rw [hw]; rfl)
  obtain ⟨index, ⟨ci, cs⟩, additions⟩ := q
  have hkd' : index.keychains.get (internalKeychain t) = some d := by
    rw [(KeychainIndex.nextUnused_upd hq).kc]; exact hkd
  obtain ⟨cw, hcw⟩ := expectedWeight_ret hc hp
  simp only at hp
  obtain ⟨rs, hrs, -⟩ := runSelection_total (algo := algo) (luck := luck)
    (s := Selector.new wv (selectorOpt env d [⟨value, payee⟩] ⟨0, cs⟩ cw)) hs rfl (v := value)
    (by rw [Steps.opt_eq]; rfl) (by rw [Steps.opt_eq]; rfl)
  unfold createTx
  simp only [hpl, hwv, hq, Option.bind_eq_bind, Option.bind_some, hkd', hp, hcw, hrs]
  cases rs with
  | error e => exact ⟨_, _, rfl, .inr ⟨e, rfl⟩⟩
  | ok sel =>
    simp only
    obtain ⟨X, hX, hfin⟩ := runSelection_ok (s := Selector.new wv (selectorOpt env d [⟨value, payee⟩] ⟨0, cs⟩ cw)) hs rfl hrs
    have hsel := (C45_sound _ _ hfin).1
    simp only at hsel
    obtain ⟨nb, hnb, -⟩ := C45_best _ _ hfin _ (luck.strategies.isPerm sel.strategies)
    have hlen : wv.length = (sortCandidates algo planned).length := by
      have := congrArg List.length (mapM_eq hwv)
      simpa using this.symm
    obtain ⟨selected, hap⟩ := mapM_isSome (f := fun i => (sortCandidates algo planned)[i]?) (l := sel.selected.sort (· ≤ ·)) (by
      intro i hi
      rw [Finset.mem_sort, hsel] at hi
      have := Finset.mem_range.1 (hX hi)
      change i < wv.length at this
      rw [List.getElem?_eq_getElem (by omega)]; rfl)
    have hap' : applySelection sel.selected (sortCandidates algo planned) = some selected := hap
    have hok : ∀ (tx : BuiltTx), tx.input = selected.map unsignedInput →
        ∃ ins, signInputs env tx (selected.map fun c => c.2.txout) 0 selected = some (.ok ins) := by
      intro tx htx
      apply signInputs_ok hc
      · rw [htx]; simp
      · rw [htx]; simp
      · intro x hx; exact hmemp x ((applySelection_facts hap').2.1 x hx)
    unfold assemble
    simp only [hnb, hap', Option.bind_eq_bind, Option.bind_some]
    generalize hq : signInputs env _ _ 0 selected = q
    have hok' : ∀ {tx : BuiltTx} {q}, signInputs env tx (selected.map fun c => c.2.txout) 0 selected = q →
        tx.input = selected.map unsignedInput → ∃ ins, q = some (.ok ins) := by
      intro tx q e1 e2
      obtain ⟨ins, e3⟩ := hok tx e2
      exact ⟨ins, by rw [← e1, e3]⟩
    obtain ⟨ins, rfl⟩ := hok' hq rfl
    exact ⟨_, _, rfl, .inl ⟨_, rfl⟩⟩

/-- **C60** The error of coin selection is reported only if the coins that can be signed for, all together, do not pay the
recipient and half a satoshi per weight unit of the transaction that spends them all (if that transaction weighs at most 2^24); it
says what they are worth and how much is missing. -/
theorem C60_insufficient (ht : t.Reachable) (hs : ValidSort (1 / 2) luck.sort) (e : SelErr)
    (h : createTx env luck t value payee algo = some (t', .error (.selection e))) :
    ∃ (coins : List (Plan Key Ak × FullTxOut P)) (ws : List Nat),
      (coins.map fun x => x.2.outpoint).Nodup ∧
      (∀ o out, (∃ x ∈ coins, x.2.outpoint = o ∧ x.2.txout = out) ↔ ∃ k i d p, WalletCoin t o k i out ∧
        t.txoutIndex.keychains.get k = some d ∧ env.plan d i = .ret (some p)) ∧
      coins.map (fun x => x.1.expectedWeight env.lib) = ws.map .ret ∧
      let weight := 4 * (10 + outputSize env.scriptLen ⟨value, payee⟩) + (ws.map (160 + ·)).sum
        + (if coins = [] then 0 else 2) + 4 * (counterLen coins.length - 1)
      weight ≤ 2 ^ 24 → e.selected = (coins.map fun x => x.2.txout.value).sum ∧ 0 < e.missing ∧
      e.selected + e.missing = value + (weight + 1) / 2 := by
  unfold createTx at h
  cases h1 : plannedUtxos env t (t.fullUtxos luck.spend) with
  | none => rw [h1] at h; cases h
  | some planned =>
  rw [h1] at h
  simp only [Option.bind_eq_bind, Option.bind_some] at h
  cases h2 : (sortCandidates algo planned).mapM (weighted env) with
  | none => rw [h2] at h; cases h
  | some wv =>
  rw [h2] at h
  simp only [Option.bind_some] at h
  cases h3 : t.txoutIndex.nextUnusedSpk (internalKeychain t) with
  | none => rw [h3] at h; cases h
  | some q =>
  obtain ⟨index, ⟨ci, cs⟩, additions⟩ := q
  rw [h3] at h
  simp only [Option.bind_some] at h
  cases h4 : index.keychains.get (internalKeychain t) with
  | none => rw [h4] at h; cases h
  | some d =>
  rw [h4] at h
  simp only [Option.bind_some] at h
  cases h5 : env.plan d ci with
  | panic => rw [h5] at h; cases h
  | ret o =>
  rw [h5] at h
  cases o with
  | none => cases h
  | some plan =>
  simp only at h
  cases h6 : plan.expectedWeight env.lib with
  | panic => rw [h6] at h; cases h
  | ret cw =>
  rw [h6] at h
  simp only at h
  obtain ⟨rs, hrs, herr⟩ := runSelection_total (algo := algo) (luck := luck)
    (s := Selector.new wv (selectorOpt env d [⟨value, payee⟩] ⟨0, cs⟩ cw)) hs rfl (v := value)
    (by rw [Steps.opt_eq]; rfl) (by rw [Steps.opt_eq]; rfl)
  rw [hrs] at h
  simp only [Option.bind_some] at h
  have hfe : rs = .error e := by
    cases rs with
    | error e' =>
      simp only [Option.pure_def, Option.some.injEq, Prod.mk.injEq, Except.error.injEq, CmdErr.selection.injEq] at h
      rw [h.2]
    | ok sel =>
      exfalso
      simp only at h
      cases h8 : assemble env luck { t with txoutIndex := index } (sortCandidates algo planned) ⟨value, payee⟩ ⟨0, cs⟩
          (additions, (internalKeychain t, ci)) sel with
      | none => rw [h8] at h; cases h
      | some res =>
        rw [h8] at h
        simp only [Option.bind_some, Option.pure_def, Option.some.injEq, Prod.mk.injEq] at h
        obtain ⟨-, rfl⟩ := h
        exact assemble_no_selection h8
  obtain ⟨ws, hws, hwve⟩ : ∃ ws : List Nat, (sortCandidates algo planned).map (fun x => x.1.expectedWeight env.lib) = ws.map .ret ∧
      wv = ((sortCandidates algo planned).zip ws).map fun x => ⟨x.1.2.txout.value, 160 + x.2, 1, true⟩ := by
    have h1 := mapM_eq h2
    revert h1
    generalize sortCandidates algo planned = l
    clear * -
    intro h1
    induction l generalizing wv with
    | nil =>
      cases wv with
      | nil => exact ⟨[], rfl, rfl⟩
      | cons _ _ => cases h1
    | cons x l ih =>
      cases wv with
      | nil => cases h1
      | cons v wv =>
        simp only [List.map_cons, List.cons.injEq] at h1
        obtain ⟨ws, e1, e2⟩ := ih wv h1.2
        have := h1.1
        unfold weighted at this
        cases he : x.1.expectedWeight env.lib with
        | panic => rw [he] at this; cases this
        | ret w =>
          rw [he] at this
          simp only at this
          rw [(C45_constructors x.2.txout.value w 0 0 0 _).1] at this
          refine ⟨w :: ws, ?_, ?_⟩
          · simp only [List.map_cons, e1, he]
          · simp only [List.zip_cons_cons, List.map_cons, ← e2]
            rw [(Option.some.inj this).symm]; rfl
  have hlen : ws.length = (sortCandidates algo planned).length := by
    have := congrArg List.length hws
    simpa using this.symm
  have hwl : wv.length = (sortCandidates algo planned).length := by rw [hwve]; simp [hlen]
  have hval : CoinSelect.Spec.value wv (Finset.range wv.length) = ((sortCandidates algo planned).map fun x => x.2.txout.value).sum := by
    unfold CoinSelect.Spec.value
    rw [sum_range_getD default WV.value, hwve, List.map_map]
    congr 1
    have : (sortCandidates algo planned) = ((sortCandidates algo planned).zip ws).map Prod.fst := by
      rw [List.map_fst_zip]; omega
    conv_rhs => rw [this, List.map_map]
    rfl
  have hwt : ∑ i ∈ Finset.range wv.length, (wv.getD i default).weight = (ws.map (160 + ·)).sum := by
    rw [sum_range_getD default WV.weight, hwve, List.map_map]
    congr 1
    have : ws = ((sortCandidates algo planned).zip ws).map Prod.snd := by
      rw [List.map_snd_zip]; omega
    conv_rhs => rw [this, List.map_map]
    rfl
  have hat : ∀ i ∈ Finset.range wv.length, (wv.getD i default).inputCount = 1 ∧ (wv.getD i default).isSegwit = true := by
    intro i hi
    have hi := Finset.mem_range.1 hi
    have hm : wv.getD i default ∈ wv := by
      rw [List.getD_eq_getElem?_getD, List.getElem?_eq_getElem hi]; exact List.getElem_mem _
    rw [hwve, List.mem_map] at hm
    obtain ⟨x, -, hx⟩ := hm
    rw [hwve, ← hx]
    exact ⟨rfl, rfl⟩
  have hcount : ∑ i ∈ Finset.range wv.length, (wv.getD i default).inputCount = (sortCandidates algo planned).length := by
    rw [Finset.sum_congr rfl (fun i hi => (hat i hi).1)]
    simp [hwl]
  have hseg : (∃ i ∈ Finset.range wv.length, (wv.getD i default).isSegwit = true) ↔ sortCandidates algo planned ≠ [] := by
    constructor
    · rintro ⟨i, hi, -⟩ he
      have := Finset.mem_range.1 hi
      rw [hwl, he] at this
      cases this
    · intro he
      have h0 : 0 ∈ Finset.range wv.length := by
        rw [Finset.mem_range, hwl]; exact List.length_pos_iff.2 he
      exact ⟨0, h0, (hat 0 h0).2⟩
  refine ⟨sortCandidates algo planned, ws, ?_, ?_, hws, ?_⟩
  · have h1' := (sortCandidates_perm algo planned).map (fun x : Candidate Key Ak P => x.2.outpoint)
    rw [h1'.nodup_iff]
    have h2' := (plannedUtxos_spec h1).1.map (FullTxOut.outpoint (P := P))
    rw [List.map_map, List.map_map] at h2'
    exact h2'.nodup (C39_full_utxos t ht luck.spend).2
  · intro o out
    constructor
    · rintro ⟨x, hx, rfl, rfl⟩
      obtain ⟨k, i, d, h1', h2', h3'⟩ := ((plannedUtxos_spec h1).2 x.1 x.2).1 ((sortCandidates_perm algo planned).subset hx)
      obtain ⟨a, ⟨y, b1, b2, -⟩, -, e⟩ := ((C39_full_utxos t ht luck.spend).1 k i x.2).1 h1'
      exact ⟨k, i, d, x.1, ⟨a, ⟨_, y, b1, b2⟩, e⟩, h2', h3'⟩
    · rintro ⟨k, i, d, p, ⟨c1, ⟨pos, y, c2, c3⟩, c4⟩, hk, hp⟩
      refine ⟨(p, ⟨o, out, pos, none, (asTx y).isCoinBase⟩), ?_, rfl, rfl⟩
      apply (sortCandidates_perm algo planned).mem_iff.2
      apply ((plannedUtxos_spec h1).2 _ _).2
      exact ⟨k, i, d, ((C39_full_utxos t ht luck.spend).1 k i _).2 ⟨c1, ⟨y, c2, c3, rfl⟩, rfl, c4⟩, hk, hp⟩
  · intro weight hsmall
    have hwall : ∀ o : Opt, o.baseWeight = 4 * (10 + outputSize env.scriptLen ⟨value, payee⟩) →
        CoinSelect.Spec.weight o wv (Finset.range wv.length) = weight := by
      intro o ho
      unfold CoinSelect.Spec.weight
      rw [hwt, hcount, ho]
      by_cases he : sortCandidates algo planned = []
      · rw [if_neg (fun h => hseg.1 h he)]; simp only [weight]; rw [if_pos he]
      · rw [if_pos (hseg.2 he)]; simp only [weight]; rw [if_neg he]
    have hfin := herr (by
      unfold Selector.new
      rw [Steps.opt_eq]
      simp only
      rw [hwall _ rfl]; exact hsmall) e hfe
    obtain ⟨-, a2, a3, a4, -⟩ := C45_error_iff _ e hfin
    unfold Selector.new at a2 a4
    rw [Steps.opt_eq] at a4
    simp only at a2 a4
    refine ⟨by rw [a2, ← hval], a3, ?_⟩
    rw [a4]
    unfold CoinSelect.Spec.required
    rw [hwall _ rfl]
    simp only [Option.getD_some]
    rw [minFee_half _ hsmall, Nat.add_zero, Nat.max_eq_left (by omega)]

/-! ### which coins are taken -/

theorem stage_empty (n k : Nat) (h : k ≤ n) : CoinSelect.Spec.stage n ∅ k = Finset.range k := by
  unfold CoinSelect.Spec.stage
  ext i
  simp [List.take_range, h]

theorem mem_applySelection {α : Type} {X : Finset Nat} {cands sel : List α} (h : applySelection X cands = some sel) {a : α} :
    a ∈ sel ↔ ∃ i ∈ X, cands[i]? = some a := by
  have h1 := mapM_eq h
  rw [show (a ∈ sel) ↔ some a ∈ sel.map some by simp, ← h1, List.mem_map]
  simp [Finset.mem_sort]

/-- **C60** All but branch and bound prefer coins: largest or smallest value first, oldest or newest first.  No coin left out, for
which there was a plan, goes before a coin that is spent. -/
theorem C60_preference (h : createTx env luck t value payee algo = some (t', .ok c)) (ht : t.Reachable)
    (i : TxIn) (hi : i ∈ c.tx.input) (k n out pos x) (hw : WalletCoin t i.previousOutput k n out)
    (hp : t.chainGraph.getTxInChain i.previousOutput.txid = some (some (pos, x)))
    (o : OutPoint) (ho : o ∉ c.tx.input.map TxIn.previousOutput) (k' n' out' pos' x' d' p') (hw' : WalletCoin t o k' n' out')
    (hp' : t.chainGraph.getTxInChain o.txid = some (some (pos', x'))) (hd' : t.txoutIndex.keychains.get k' = some d')
    (hpl' : env.plan d' n' = .ret (some p')) :
    match algo with
    | .largestFirst => out'.value ≤ out.value
    | .smallestFirst => out.value ≤ out'.value
    | .oldestFirst => pos ≤ pos'
    | .newestFirst => pos' ≤ pos
    | .branchAndBound => True := by
  by_cases halgo : algo = .branchAndBound
  · subst halgo; trivial
  obtain ⟨r⟩ := createTx_steps h
  -- the coins taken come first in the list
  obtain ⟨m, hm⟩ : ∃ m, r.sel.selected = Finset.range m := by
    have h1 : (Selector.selectUntilFinished (Selector.new r.wv (selectorOpt env r.d [⟨value, payee⟩] ⟨0, r.q.2.1.2⟩ r.cw))).map (·.1)
        = some (.ok r.sel) := by
      have := r.hsel
      cases algo <;> first | exact absurd rfl halgo | exact this
    rw [Option.map_eq_some_iff] at h1
    obtain ⟨⟨a, s'⟩, h2, h3⟩ := h1
    simp only at h3
    subst h3
    obtain ⟨m, hm1, hm2, hm3, -⟩ := C46_first_sufficient _ s' _ (by simp [Selector.new]) h2
    have := (C45_sound _ _ hm3).1
    refine ⟨m, ?_⟩
    rw [this, hm2]
    exact stage_empty _ _ hm1
  -- the coin that is spent
  obtain ⟨xs, hxs, hxo⟩ : ∃ xs ∈ r.selected, xs.2.outpoint = i.previousOutput := by
    have h1 := List.mem_map_of_mem (f := TxIn.previousOutput) hi
    rw [r.map_ins TxIn.previousOutput (fun x => x.2.outpoint) (fun x w => rfl), List.mem_map] at h1
    exact h1
  have hsel : ∃ a, a < m ∧ (sortCandidates algo r.planned)[a]? = some xs := by
    obtain ⟨a, h1, h2⟩ := (mem_applySelection r.happly).1 hxs
    rw [hm] at h1
    exact ⟨a, Finset.mem_range.1 h1, h2⟩
  obtain ⟨a, ha, hxa⟩ := hsel
  have facts : ∀ y ∈ r.planned, ∀ out pos x k n, WalletCoin t y.2.outpoint k n out →
      t.chainGraph.getTxInChain y.2.outpoint.txid = some (some (pos, x)) → y.2.txout = out ∧ y.2.chainPosition = pos := by
    intro y hy out pos x k n hw hp
    obtain ⟨k, i, d, h1, h2, h3⟩ := ((plannedUtxos_spec r.hplanned).2 y.1 y.2).1 hy
    obtain ⟨-, ⟨z, b1, b2, -⟩, -, -⟩ := ((C39_full_utxos t ht luck.spend).1 k i y.2).1 h1
    obtain ⟨pos2, x2, c1, c2⟩ := hw.inChain
    rw [hp] at b1 c1
    cases b1; cases c1
    rw [b2] at c2
    exact ⟨Option.some.inj c2, rfl⟩
  have hsx := facts xs (r.selected_mem hxs) out pos x k n (by rw [hxo]; exact hw) (by rw [hxo]; exact hp)
  -- the coin that is left out
  obtain ⟨xo, hxo1, hxo2, b, hb, hxb⟩ : ∃ xo ∈ r.planned, xo.2.outpoint = o ∧ ∃ b, m ≤ b ∧ (sortCandidates algo r.planned)[b]? = some xo := by
    obtain ⟨y, e2, e3⟩ : ∃ y, t.chainGraph.getTxInChain o.txid = some (some (pos', y)) ∧ (asTx y).output[o.vout.val]? = some out' := by
      obtain ⟨pos2, y, e1, e2⟩ := hw'.inChain
      rw [hp'] at e1
      cases e1
      exact ⟨_, hp', e2⟩
    have hmem : (p', (⟨o, out', pos', none, (asTx y).isCoinBase⟩ : FullTxOut P)) ∈ r.planned :=
      ((plannedUtxos_spec r.hplanned).2 _ _).2
        ⟨k', n', d', ((C39_full_utxos t ht luck.spend).1 k' n' _).2 ⟨hw'.indexed, ⟨y, e2, e3, rfl⟩, rfl, hw'.unspent⟩, hd', hpl'⟩
    refine ⟨_, hmem, rfl, ?_⟩
    obtain ⟨b, hb⟩ := List.getElem?_of_mem ((sortCandidates_perm algo r.planned).mem_iff.2 hmem)
    refine ⟨b, ?_, hb⟩
    by_contra hlt
    apply ho
    rw [r.map_ins TxIn.previousOutput (fun x => x.2.outpoint) (fun x w => rfl), List.mem_map]
    refine ⟨_, (mem_applySelection r.happly).2 ⟨b, ?_, hb⟩, rfl⟩
    rw [hm]; exact Finset.mem_range.2 (by omega)
  have hox := facts xo hxo1 out' pos' x' k' n' (by rw [hxo2]; exact hw') (by rw [hxo2]; exact hp')
  have key : ∀ R : Candidate Key Ak P → Candidate Key Ak P → Prop, (sortCandidates algo r.planned).Pairwise R → R xs xo := by
    intro R hR
    rw [List.pairwise_iff_getElem] at hR
    obtain ⟨h1, h2⟩ := List.getElem?_eq_some_iff.1 hxa
    obtain ⟨h3, h4⟩ := List.getElem?_eq_some_iff.1 hxb
    have := hR a b h1 h3 (by omega)
    rw [h2, h4] at this
    exact this
  rw [← hsx.1, ← hsx.2, ← hox.1, ← hox.2]
  cases algo with
  | branchAndBound => exact absurd rfl halgo
  | largestFirst =>
    have i1 : Std.Total (fun a b : Candidate Key Ak P => b.2.txout.value ≤ a.2.txout.value) := ⟨fun a b => le_total _ _⟩
    have i2 : IsTrans (Candidate Key Ak P) (fun a b => b.2.txout.value ≤ a.2.txout.value) := ⟨fun a b c h1 h2 => le_trans h2 h1⟩
    exact key (fun a b => b.2.txout.value ≤ a.2.txout.value) (List.pairwise_insertionSort _ _)
  | smallestFirst =>
    have i1 : Std.Total (fun a b : Candidate Key Ak P => a.2.txout.value ≤ b.2.txout.value) := ⟨fun a b => le_total _ _⟩
    have i2 : IsTrans (Candidate Key Ak P) (fun a b => a.2.txout.value ≤ b.2.txout.value) := ⟨fun a b c h1 h2 => le_trans h1 h2⟩
    exact key (fun a b => a.2.txout.value ≤ b.2.txout.value) (List.pairwise_insertionSort _ _)
  | oldestFirst =>
    have i1 : Std.Total (fun a b : Candidate Key Ak P => a.2.chainPosition ≤ b.2.chainPosition) := ⟨fun a b => le_total _ _⟩
    have i2 : IsTrans (Candidate Key Ak P) (fun a b => a.2.chainPosition ≤ b.2.chainPosition) := ⟨fun a b c h1 h2 => le_trans h1 h2⟩
    exact key (fun a b => a.2.chainPosition ≤ b.2.chainPosition) (List.pairwise_insertionSort _ _)
  | newestFirst =>
    have i1 : Std.Total (fun a b : Candidate Key Ak P => b.2.chainPosition ≤ a.2.chainPosition) := ⟨fun a b => le_total _ _⟩
    have i2 : IsTrans (Candidate Key Ak P) (fun a b => b.2.chainPosition ≤ a.2.chainPosition) := ⟨fun a b c h1 h2 => le_trans h2 h1⟩
    exact key (fun a b => b.2.chainPosition ≤ a.2.chainPosition) (List.pairwise_insertionSort _ _)

/-! ## concrete runs -/

section Examples

/-- two coins: one confirmed at the tip, one unconfirmed -/
def exWalletOps : List (Tracker.Op Keychain TxHeight CliTx) :=
  [.revealNextSpk .external, .revealNextSpk .external, .insertCheckpoint ⟨5, 105⟩ oC, .insertTx ⟨0⟩ (.confirmed 5) oC,
   .insertTx ⟨3⟩ .unconfirmed oC]
def exWallet : CliTracker := ((exBase.runFrom exWalletOps).map Prod.fst).getD exBase

theorem exWallet_reachable : exWallet.Reachable := by
  have h : (exBase.runFrom exWalletOps).isSome = true := by decide +kernel
  rcases hr : exBase.runFrom exWalletOps with _ | r
  · rw [hr] at h; cases h
  · have : exWallet = r.1 := by unfold exWallet; rw [hr]; rfl
    rw [this]
    refine tracker_run_reachable (initTracker_reachable exBase_init) exWalletOps ?_ hr
    intro op hop
    simp only [exWalletOps, List.mem_cons, List.not_mem_nil, or_false] at hop
    rcases hop with rfl | rfl | rfl | rfl | rfl <;> trivial

def exLuck2 : Luck := ⟨soId, exSort (1 / 2), 64, HashOrder.id _⟩

/-- the hypotheses on the environment hold -/
example : ValidSort (1 / 2) exLuck2.sort ∧ AllDerivable exWallet.txoutIndex ∧ CanSign exEnv :=
  ⟨exSort_valid _, fun _ d _ => demo_derivable d,
    { keys := fun ak _ => ⟨_, rfl, fun _ _ _ _ => rfl⟩
      keyHash := fun _ _ _ _ _ => rfl
      scriptHash := fun _ _ _ _ _ _ => rfl
      leaves := fun d i l hl => by cases hl }⟩
example : PlainKeys exEnv :=
  { pub := fun k => by simp [exEnv, exLib, exXonly]
    noPkH := fun d i l hl => by cases hl
    sig := fun _ _ _ _ _ => by simp [exEnv, exCrypto]
    tweaked := fun _ _ _ _ _ _ => by simp [exEnv, exCrypto] }

/-- what `create_tx` does: the outputs spent, the outputs made, whether there is change, weight and lock time -/
def exCreate (t : CliTracker) (value : Nat) (algo : Algo) : List Txid × List (Nat × Script) × Bool × Nat × Nat :=
  match createTx exEnv exLuck2 t value 1000 algo with
  | some (_, .ok c) => (c.tx.input.map fun i => i.previousOutput.txid, c.tx.output.map fun x => (x.value, x.spk), c.change.isSome, txWeight exEnv.scriptLen c.tx, c.tx.lockTime)
  | _ => default

/-- change (`C60_fee`, `C60_outputs`, `C60_change_decision`: 616 weight units, 308 satoshis), none (the 300 satoshis are less than
the change would cost) -/
example : exCreate exWallet 40000 .largestFirst = ([cliId 0], [(40000, 1000), (59692, 1)], true, 616, 5) := by decide +kernel
example : exCreate exWallet 99700 .largestFirst = ([cliId 0], [(99700, 1000)], false, 444, 5) := by decide +kernel

/-- `C60_preference`: two coins, one of which is taken -/
example : exCreate exWallet 40000 .oldestFirst = ([cliId 0], [(40000, 1000), (59692, 1)], true, 616, 5) := by decide +kernel
example : exCreate exWallet 40000 .newestFirst = ([cliId 3], [(40000, 1000), (59692, 1)], true, 616, 5) := by decide +kernel

/-- `C60_insufficient`: two inputs, 674 weight units with a payment and no change -/
example : (match createTx exEnv exLuck2 exWallet 200000 1000 .branchAndBound with
    | some (_, .error (.selection e)) => decide (e.selected = 200000 ∧ e.missing = 337)
    | _ => false) = true := by
  decide +kernel

/-- **C60** `create_tx` does not look at the maturity of coins: it spends an output of a coinbase in the block of the tip, which the
network refuses for another 99 blocks. -/
theorem C60_spends_immature_coinbase : ∃ t : CliTracker, t.Reachable ∧ ∃ t' c, createTx exEnv exLuck2 t 40000 1000 .largestFirst = some (t', .ok c) ∧
    ∃ i ∈ c.tx.input, ∃ ki f, (ki, f) ∈ t.fullUtxos soId ∧ f.outpoint = i.previousOutput ∧
      t.chainGraph.chain.latestCheckpoint = some ⟨5, 105⟩ ∧ f.isMature 5 = some false ∧ f.isSpendableAt 5 = some false := by
  let ops : List (Tracker.Op Keychain TxHeight CliTx) :=
    [.nextUnusedSpk .external, .insertCheckpoint ⟨5, 105⟩ oC, .insertTx ⟨4⟩ (.confirmed 5) oC]
  let t : CliTracker := ((exBase.runFrom ops).map Prod.fst).getD exBase
  have hchk : (match createTx exEnv exLuck2 t 40000 1000 .largestFirst with
      | some (_, .ok c) => c.tx.input.any fun i => (t.fullUtxos soId).any fun e => decide (e.2.outpoint = i.previousOutput ∧
          t.chainGraph.chain.latestCheckpoint = some ⟨5, 105⟩ ∧ e.2.isMature 5 = some false ∧ e.2.isSpendableAt 5 = some false)
      | _ => false) = true := by decide +kernel
  refine ⟨t, ?_, ?_⟩
  · have h : (exBase.runFrom ops).isSome = true := by decide +kernel
    rcases hr : exBase.runFrom ops with _ | r
    · rw [hr] at h; cases h
    · have : t = r.1 := by show ((exBase.runFrom ops).map Prod.fst).getD exBase = _; rw [hr]; rfl
      rw [this]
      refine tracker_run_reachable (initTracker_reachable exBase_init) ops ?_ hr
      intro op hop
      simp only [ops, List.mem_cons, List.not_mem_nil, or_false] at hop
      rcases hop with rfl | rfl | rfl <;> trivial
  · revert hchk
    rcases createTx exEnv exLuck2 t 40000 1000 .largestFirst with _ | ⟨t', e | c⟩
    · intro h; cases h
    · intro h; cases h
    · intro h
      refine ⟨t', c, rfl, ?_⟩
      simp only [List.any_eq_true, decide_eq_true_eq] at h
      obtain ⟨i, hi, ⟨ki, f⟩, hf, e1, e2, e3, e4⟩ := h
      exact ⟨i, hi, ki, f, hf, e1, e2, e3, e4⟩

end Examples

end Verif.Cli
