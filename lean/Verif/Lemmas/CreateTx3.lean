import Verif.Lemmas.CreateTx2

/-!
# What a successful `create_tx` did
-/

set_option linter.unusedSectionVars false

namespace Verif.Cli
open Verif Verif.CoinSelect Verif.Planner Verif.Spec Verif.Props Verif.Cli.Spec
open Verif.CoinSelect.Spec (counterLen)

variable {D Key Ak Sec XPrv Msg T P : Type} [DescriptorOps D] [DecidableEq D] [LinearOrder P] [ChainPosition P] [LinearOrder T]
  [AsTransaction T] [DecidableEq Key] [LawfulChainPosition P] [LawfulTx T]

namespace Steps
variable {env : Env D Key Ak Sec XPrv Msg T} {luck : Luck} {t t' : Tracker Keychain D P T} {value : Nat} {payee : Script}
    {algo : Algo} {c : Created T}

/-- the outputs handed to the signature hash -/
def prevouts (r : Steps env luck t value payee algo t' c) : List TxOut := r.selected.map fun c => c.2.txout

theorem ins_at (r : Steps env luck t value payee algo t' c) {j : Nat} {x : Candidate Key Ak P} (h : r.selected[j]? = some x) :
    ∃ w, c.tx.input[j]? = some { unsignedInput x with witness := w } ∧
      signInput env ⟨2, lockTimeOf t, r.selected.map unsignedInput, outputsOf ⟨value, payee⟩ ⟨0, r.q.2.1.2⟩ r.nb.2.drainValue⟩
        r.prevouts j x.1 = some (.ok w) := by
  obtain ⟨w, h1, h2⟩ := (signInputs_inv _ _ _ r.hsign).2 j x h
  rw [Nat.zero_add] at h2
  exact ⟨w, by rw [r.htx]; exact h1, h2⟩

theorem ins_len (r : Steps env luck t value payee algo t' c) : c.tx.input.length = r.selected.length := by
  rw [r.htx]; exact (signInputs_inv _ _ _ r.hsign).1

theorem ins_back (r : Steps env luck t value payee algo t' c) {j : Nat} {i : TxIn} (h : c.tx.input[j]? = some i) :
    ∃ x w, r.selected[j]? = some x ∧ i = { unsignedInput x with witness := w } ∧
      signInput env ⟨2, lockTimeOf t, r.selected.map unsignedInput, outputsOf ⟨value, payee⟩ ⟨0, r.q.2.1.2⟩ r.nb.2.drainValue⟩
        r.prevouts j x.1 = some (.ok w) := by
  have hj : j < r.selected.length := by
    rw [← r.ins_len]; exact (List.getElem?_eq_some_iff.1 h).1
  obtain ⟨w, h1, h2⟩ := r.ins_at (List.getElem?_eq_getElem hj)
  rw [h] at h1
  exact ⟨_, w, List.getElem?_eq_getElem hj, Option.some.inj h1, h2⟩

theorem map_ins (r : Steps env luck t value payee algo t' c) {β : Type} (f : TxIn → β) (g : Candidate Key Ak P → β)
    (h : ∀ x w, f { unsignedInput x with witness := w } = g x) : c.tx.input.map f = r.selected.map g := by
  apply List.ext_getElem?
  intro j
  rw [List.getElem?_map, List.getElem?_map]
  cases hj : r.selected[j]? with
  | none =>
    rw [List.getElem?_eq_none_iff, ← r.ins_len] at hj
    rw [List.getElem?_eq_none hj]; rfl
  | some x =>
    obtain ⟨w, h1, -⟩ := r.ins_at hj
    rw [h1]
    simp [h]

theorem unsigned_eq (r : Steps env luck t value payee algo t' c) :
    unsigned c.tx = ⟨2, lockTimeOf t, r.selected.map unsignedInput, outputsOf ⟨value, payee⟩ ⟨0, r.q.2.1.2⟩ r.nb.2.drainValue⟩ := by
  have := r.map_ins (fun i => ({ i with witness := [] } : TxIn)) unsignedInput (fun x w => rfl)
  unfold unsigned
  rw [this, r.htx]

theorem selected_mem (r : Steps env luck t value payee algo t' c) {x : Candidate Key Ak P} (h : x ∈ r.selected) : x ∈ r.planned :=
  (sortCandidates_perm algo r.planned).subset ((applySelection_facts r.happly).2.1 x h)

theorem selected_coin (r : Steps env luck t value payee algo t' c) (ht : t.Reachable) {x : Candidate Key Ak P} (h : x ∈ r.selected) :
    ∃ k i d, WalletCoin t x.2.outpoint k i x.2.txout ∧ t.txoutIndex.keychains.get k = some d ∧ env.plan d i = .ret (some x.1) := by
  obtain ⟨k, i, d, h1, h2, h3⟩ := ((plannedUtxos_spec r.hplanned).2 x.1 x.2).1 (r.selected_mem h)
  obtain ⟨a, ⟨y, b1, b2, -⟩, -, e⟩ := ((C39_full_utxos t ht luck.spend).1 k i x.2).1 h1
  exact ⟨k, i, d, ⟨a, ⟨_, y, b1, b2⟩, e⟩, h2, h3⟩

theorem selected_nodup (r : Steps env luck t value payee algo t' c) (ht : t.Reachable) :
    (r.selected.map fun x => x.2.outpoint).Nodup := by
  apply (applySelection_facts r.happly).2.2 (fun x : Candidate Key Ak P => x.2.outpoint)
  have h1 := (sortCandidates_perm algo r.planned).map (fun x : Candidate Key Ak P => x.2.outpoint)
  rw [h1.nodup_iff]
  have h2 := (plannedUtxos_spec r.hplanned).1.map (FullTxOut.outpoint (P := P))
  rw [List.map_map, List.map_map] at h2
  exact h2.nodup (C39_full_utxos t ht luck.spend).2

theorem graph_txout (_r : Steps env luck t value payee algo t' c) {o : OutPoint} {k : Keychain} {i : Nat} {out : TxOut}
    (h : WalletCoin t o k i out) : t.chainGraph.graph.getTxout o = some out := by
  obtain ⟨pos, x, h1, h2⟩ := h.inChain
  have hx : t.chainGraph.graph.getTx o.txid = some x := by
    unfold ChainGraph.getTxInChain at h1
    cases hp : t.chainGraph.chain.txPosition o.txid with
    | none => rw [hp] at h1; cases h1
    | some p =>
      rw [hp] at h1
      cases hg : t.chainGraph.graph.getTx o.txid with
      | none => rw [hg] at h1; cases h1
      | some y => rw [hg] at h1; cases h1; rfl
  unfold TxGraph.getTx at hx
  unfold TxGraph.getTxout
  cases hg : t.chainGraph.graph.txs.get o.txid with
  | none => rw [hg] at hx; cases hx
  | some n =>
    rw [hg] at hx
    cases n with
    | whole y => cases hx; exact h2
    | partialOuts p => cases hx

theorem prevouts_eq (r : Steps env luck t value payee algo t' c) (ht : t.Reachable) :
    r.prevouts.map some = c.tx.input.map fun i => t.chainGraph.graph.getTxout i.previousOutput := by
  have := r.map_ins (fun i => t.chainGraph.graph.getTxout i.previousOutput)
    (fun x => t.chainGraph.graph.getTxout x.2.outpoint) (fun x w => rfl)
  rw [this, prevouts, List.map_map]
  apply List.map_congr_left
  intro x hx
  obtain ⟨k, i, d, h, -⟩ := r.selected_coin ht hx
  exact (r.graph_txout h).symm

theorem inputValue_eq (r : Steps env luck t value payee algo t' c) (ht : t.Reachable) :
    inputValue t c.tx = (r.selected.map fun x => x.2.txout.value).sum := by
  have h := congrArg (List.map fun o : Option TxOut => (o.map TxOut.value).getD 0) (r.prevouts_eq ht)
  unfold inputValue
  rw [List.map_map] at h
  simp only [prevouts, List.map_map] at h
  rw [show (c.tx.input.map fun i => ((t.chainGraph.graph.getTxout i.previousOutput).map TxOut.value).getD 0) =
      List.map ((fun o : Option TxOut => (o.map TxOut.value).getD 0) ∘ fun i : TxIn => t.chainGraph.graph.getTxout i.previousOutput) c.tx.input from rfl,
    ← h]
  rfl

/-! ### the selection -/

/-- the selector of this payment -/
def selector (r : Steps env luck t value payee algo t' c) (X : Finset Nat) : Selector :=
  { Selector.new r.wv (selectorOpt env r.d [⟨value, payee⟩] ⟨0, r.q.2.1.2⟩ r.cw) with selected := X }

theorem finished (r : Steps env luck t value payee algo t' c) (hs : ValidSort (1 / 2) luck.sort) :
    (r.selector r.sel.selected).finish = some (.ok r.sel) := by
  obtain ⟨X, -, h⟩ := runSelection_ok (s := Selector.new r.wv (selectorOpt env r.d [⟨value, payee⟩] ⟨0, r.q.2.1.2⟩ r.cw)) hs rfl r.hsel
  have := (C45_sound _ _ h).1
  simp only at this
  rw [this]; exact h

theorem best (r : Steps env luck t value payee algo t' c) (hs : ValidSort (1 / 2) luck.sort) :
    r.nb ∈ r.sel.strategies ∧ ∀ y ∈ r.sel.strategies, r.nb.2.waste ≤ y.2.waste := by
  obtain ⟨x, h1, h2, h3⟩ := C45_best _ _ (r.finished hs) _ (luck.strategies.isPerm _)
  have := r.hnb
  rw [h1] at this
  cases this
  exact ⟨h2, h3⟩

theorem wv_at (r : Steps env luck t value payee algo t' c) {i : Nat} {x : Candidate Key Ak P} (h : (sortCandidates algo r.planned)[i]? = some x) :
    ∃ w, x.1.expectedWeight env.lib = .ret w ∧ r.wv[i]? = some ⟨x.2.txout.value, 160 + w, 1, true⟩ := by
  have h1 := mapM_eq r.hwv
  have := congrArg (fun l => l[i]?) h1
  simp only [List.getElem?_map, h, Option.map_some] at this
  cases hw : r.wv[i]? with
  | none => rw [hw] at this; cases this
  | some v =>
    rw [hw] at this
    simp only [Option.map_some, Option.some.injEq] at this
    unfold weighted at this
    cases he : x.1.expectedWeight env.lib with
    | panic => rw [he] at this; cases this
    | ret w =>
      rw [he] at this
      simp only at this
      refine ⟨w, rfl, ?_⟩
      rw [(C45_constructors x.2.txout.value w 0 0 0 _).1] at this
      simp only [Option.some.injEq] at this ⊢
      exact this.symm

theorem value_eq (r : Steps env luck t value payee algo t' c) :
    CoinSelect.Spec.value r.wv r.sel.selected = (r.selected.map fun x => x.2.txout.value).sum := by
  unfold CoinSelect.Spec.value
  apply applySelection_sum r.happly
  intro i x h
  obtain ⟨w, -, hw⟩ := r.wv_at h
  rw [List.getD_eq_getElem?_getD, hw]; rfl

theorem opt_eq (env : Env D Key Ak Sec XPrv Msg T) (d : D) (value : Nat) (payee change : Script) (cw : Nat) :
    selectorOpt env d [⟨value, payee⟩] ⟨0, change⟩ cw =
      ⟨some value, 0, 1 / 2, none, 0, 4 * (10 + outputSize env.scriptLen ⟨value, payee⟩), 4 * outputSize env.scriptLen ⟨0, change⟩,
        160 + cw, env.dustValue d⟩ := by
  unfold selectorOpt fundOutputs Opt.fromWeights
  simp only
  simp only [weight_eq, List.isEmpty_cons, List.map_cons, List.map_nil, List.sum_cons, List.sum_nil, List.cons_append, List.nil_append]
  have h1 : txWeight env.scriptLen ⟨1, 0, [], [⟨value, payee⟩]⟩ = 4 * (10 + outputSize env.scriptLen ⟨value, payee⟩) := by
    simp [txWeight, totalSize, strippedSize, counterLen]; omega
  have h2 : txWeight env.scriptLen ⟨1, 0, [], [⟨value, payee⟩, ⟨0, change⟩]⟩ =
      4 * (10 + outputSize env.scriptLen ⟨value, payee⟩ + outputSize env.scriptLen ⟨0, change⟩) := by
    simp [txWeight, totalSize, strippedSize, counterLen]; omega
  rw [h1, h2]
  have h3 : 4 * (10 + outputSize env.scriptLen ⟨value, payee⟩ + outputSize env.scriptLen ⟨0, change⟩) -
      4 * (10 + outputSize env.scriptLen ⟨value, payee⟩) = 4 * outputSize env.scriptLen ⟨0, change⟩ := by omega
  rw [h3]
  simp [txinBaseWeight]

/-- the witnesses of the inputs -/
theorem complete_ne_nil {lib : Lib Key} {p : Plan Key Ak} {m : Material Key} {w : List Planner.Bytes}
    (h : p.tryComplete lib m = .ret (.complete w)) (hk : p.spend = .keySpend → p.template ≠ []) : w ≠ [] := by
  unfold Plan.tryComplete at h
  simp only at h
  by_cases hu : p.template.filter (TemplateItem.unsatisfied m) = []
  · rw [if_pos hu] at h
    cases hw : Plan.witnessOf lib m p.template with
    | none => rw [hw] at h; cases h
    | some args =>
      rw [hw] at h
      have hl := witnessOf_length lib m _ _ hw
      cases hs : p.spend with
      | keySpend =>
        rw [hs] at h
        simp only [Out.ret.injEq, PlanState.complete.injEq] at h
        subst h
        intro he
        rw [he] at hl
        exact hk hs (List.eq_nil_of_length_eq_zero hl.symm)
      | leafSpend s =>
        rw [hs] at h
        cases hcb : lib.controlBlock p.tr s with
        | none => simp only [hcb] at h; cases h
        | some cb =>
          simp only [hcb, Out.ret.injEq, PlanState.complete.injEq] at h
          subst h; simp
  · rw [if_neg hu] at h
    cases hs : p.spend with
    | keySpend => rw [hs] at h; simp only at h; split at h <;> simp at h
    | leafSpend s => rw [hs] at h; simp at h

theorem signed_weight {d : D} {n : Nat} {p : Plan Key Ak} (hp : env.plan d n = .ret (some p)) {tx : BuiltTx} {po : List TxOut} {j : Nat}
    {w : List Planner.Bytes} (h : signInput env tx po j p = some (.ok w)) :
    w ≠ [] ∧ (PlainKeys env → p.expectedWeight env.lib = .ret (Planner.Spec.satisfactionWeight w)) := by
  obtain ⟨f, hc, hcase⟩ := signInput_inv h
  constructor
  · apply complete_ne_nil hc
    intro hs
    rcases hcase with ⟨-, pk, ht, -⟩ | ⟨leaf, hs', -⟩
    · rw [ht]; simp
    · rw [hs] at hs'; cases hs'
  · intro hk
    refine C53_weight_default env.lib hk.pub env.canDerive (env.trAt d n) env.assets p hp (hk.noPkH d n) _ ?_ ?_ w hc
    · refine ⟨?_, ?_, ?_, ?_, ?_⟩
      · intro k s hf
        rcases hcase with ⟨-, pk, ht, ds, sec, msg, -, -, -, h4⟩ | ⟨leaf, hs', msg, -, h4⟩
        · rw [((h4 k s).1 hf).2]; exact hk.tweaked _ _ _ _ _ _
        · obtain ⟨pk, -, -, ds, sec, -, -, rfl⟩ := h4 k s hf
          exact hk.sig _ _ _ _ _
      all_goals (intro k s hf; cases hf)
    · intro k s hf
      rcases hcase with ⟨-, pk, ht, ds, sec, msg, -, -, -, h4⟩ | ⟨leaf, hs', msg, -, h4⟩
      · rw [((h4 k s).1 hf).2]
      · obtain ⟨pk, -, -, ds, sec, -, -, rfl⟩ := h4 k s hf
        rfl

theorem outputsOf_weight (sl : Script → Nat) (value : Nat) (payee cs : Script) (dv : Option Nat) :
    counterLen (outputsOf ⟨value, payee⟩ ⟨0, cs⟩ dv).length = 1 ∧
    ((outputsOf ⟨value, payee⟩ ⟨0, cs⟩ dv).map (outputSize sl)).sum =
      outputSize sl ⟨value, payee⟩ + if dv.isSome then outputSize sl ⟨0, cs⟩ else 0 := by
  cases dv <;> simp [outputsOf, counterLen, outputSize]

/-- the weight that coin selection worked with is the weight of the transaction -/
theorem weight_is (r : Steps env luck t value payee algo t' c) (ht : t.Reachable) (hs : ValidSort (1 / 2) luck.sort) (hk : PlainKeys env) :
    CoinSelect.Spec.weight (selectorOpt env r.d [⟨value, payee⟩] ⟨0, r.q.2.1.2⟩ r.cw) r.wv r.sel.selected +
      (if r.nb.2.drainValue.isSome then 4 * outputSize env.scriptLen ⟨0, r.q.2.1.2⟩ else 0) = txWeight env.scriptLen c.tx := by
  have hw : (∑ i ∈ r.sel.selected, (r.wv.getD i default).weight) =
      (r.selected.map fun x => match x.1.expectedWeight env.lib with | .ret w => 160 + w | .panic => 0).sum := by
    apply applySelection_sum r.happly
    intro i x h
    obtain ⟨w, he, hw⟩ := r.wv_at h
    rw [List.getD_eq_getElem?_getD, hw, he]; rfl
  have hc : (∑ i ∈ r.sel.selected, (r.wv.getD i default).inputCount) = r.selected.length := by
    rw [applySelection_sum r.happly (fun i => (r.wv.getD i default).inputCount) (fun _ => 1)]
    · simp
    · intro i x h
      obtain ⟨w, he, hw⟩ := r.wv_at h
      rw [List.getD_eq_getElem?_getD, hw]; rfl
  have hsum : (r.selected.map fun x => match x.1.expectedWeight env.lib with | .ret w => 160 + w | .panic => 0).sum =
      (c.tx.input.map fun i => 164 + Planner.Spec.witnessSize i.witness).sum := by
    congr 1
    apply List.ext_getElem?
    intro j
    rw [List.getElem?_map, List.getElem?_map]
    cases hj : r.selected[j]? with
    | none =>
      rw [List.getElem?_eq_none_iff, ← r.ins_len] at hj
      rw [List.getElem?_eq_none hj]; rfl
    | some x =>
      obtain ⟨w, h1, h2⟩ := r.ins_at hj
      obtain ⟨k, i, d, -, -, hp⟩ := r.selected_coin ht (List.mem_of_getElem? hj)
      rw [h1]
      simp only [Option.map_some, Option.some.injEq]
      rw [(signed_weight hp h2).2 hk]
      simp only [Planner.Spec.satisfactionWeight]
      omega
  have hseg : (∃ i ∈ r.sel.selected, (r.wv.getD i default).isSegwit = true) ↔ ∃ i ∈ c.tx.input, i.witness ≠ [] := by
    have hl := (applySelection_facts r.happly).1
    constructor
    · rintro ⟨i, hi, -⟩
      have hpos : 0 < r.selected.length := by rw [hl]; exact Finset.card_pos.2 ⟨i, hi⟩
      have h0 := List.getElem?_eq_getElem hpos
      obtain ⟨w, h1, h2⟩ := r.ins_at h0
      obtain ⟨k, i, d, -, -, hp⟩ := r.selected_coin ht (List.mem_of_getElem? h0)
      exact ⟨_, List.mem_of_getElem? h1, (signed_weight hp h2).1⟩
    · rintro ⟨i, hi, -⟩
      have hpos : 0 < r.sel.selected.card := by
        rw [← hl, ← r.ins_len]; exact List.length_pos_of_mem hi
      obtain ⟨j, hj⟩ := Finset.card_pos.1 hpos
      refine ⟨j, hj, ?_⟩
      have h1 := mapM_eq r.happly
      have hjm : j ∈ r.sel.selected.sort (· ≤ ·) := (Finset.mem_sort _).2 hj
      have : (sortCandidates algo r.planned)[j]? ∈ r.selected.map some := by
        rw [← h1]; exact List.mem_map_of_mem hjm
      obtain ⟨x, -, hx⟩ := List.mem_map.1 this
      obtain ⟨w, he, hw⟩ := r.wv_at hx.symm
      rw [List.getD_eq_getElem?_getD, hw]; rfl
  have hlin : ∀ l : List TxIn, (l.map fun i => 164 + Planner.Spec.witnessSize i.witness).sum =
      164 * l.length + (l.map fun i => Planner.Spec.witnessSize i.witness).sum := by
    intro l
    induction l with
    | nil => rfl
    | cons a l ih => simp only [List.map_cons, List.sum_cons, List.length_cons, ih]; omega
  have hcl := (counterLen_bounds r.selected.length).1
  unfold CoinSelect.Spec.weight
  rw [hw, hsum, hlin, hc, opt_eq]
  simp only
  unfold txWeight totalSize strippedSize
  have hout : c.tx.output = outputsOf ⟨value, payee⟩ ⟨0, r.q.2.1.2⟩ r.nb.2.drainValue := by rw [r.htx]
  obtain ⟨o1, o2⟩ := outputsOf_weight env.scriptLen value payee r.q.2.1.2 r.nb.2.drainValue
  rw [hout, o1, o2, r.ins_len]
  by_cases hsw : ∃ i ∈ c.tx.input, i.witness ≠ []
  · rw [if_pos hsw, if_pos (hseg.2 hsw)]
    cases r.nb.2.drainValue <;> simp only [Option.isSome_none, Option.isSome_some, Bool.false_eq_true, if_true, if_false] <;> omega
  · rw [if_neg hsw, if_neg (fun h => hsw (hseg.1 h))]
    have h0 : c.tx.input = [] := by
      by_contra hn
      obtain ⟨i, hi⟩ := List.exists_mem_of_ne_nil _ hn
      obtain ⟨j, hj⟩ := List.getElem?_of_mem hi
      obtain ⟨x, w, h1, h2, h3⟩ := r.ins_back hj
      obtain ⟨k, n, d, -, -, hp⟩ := r.selected_coin ht (List.mem_of_getElem? h1)
      exact hsw ⟨i, hi, by rw [h2]; exact (signed_weight hp h3).1⟩
    have h1 : r.selected.length = 0 := by rw [← r.ins_len, h0]; rfl
    rw [h0, h1]
    cases r.nb.2.drainValue <;> simp [counterLen] <;> omega

end Steps
end Verif.Cli
