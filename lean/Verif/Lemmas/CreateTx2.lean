import Verif.Lemmas.CreateTx

/-!
# `create_tx`, step by step
-/

set_option linter.unusedSectionVars false

namespace Verif.Cli
open Verif Verif.CoinSelect Verif.Planner Verif.Spec Verif.Props Verif.Cli.Spec

variable {D Key Ak Sec XPrv Msg T P : Type} [DescriptorOps D] [DecidableEq D] [LinearOrder P] [ChainPosition P] [LinearOrder T]
  [AsTransaction T] [DecidableEq Key]

/-- the outputs of the created transaction -/
def outputsOf (payment change : TxOut) (dv : Option Nat) : List TxOut :=
  match dv with
  | some v => [payment, { change with value := v }]
  | none => [payment]

/-- the intermediate results of a successful `create_tx` -/
structure Steps (env : Env D Key Ak Sec XPrv Msg T) (luck : Luck) (t : Tracker Keychain D P T) (value : Nat) (payee : Script)
    (algo : Algo) (t' : Tracker Keychain D P T) (c : Created T) where
  planned : List (Candidate Key Ak P)
  wv : List WV
  q : KeychainIndex Keychain D × (Nat × Script) × DerivationAdditions Keychain
  d : D
  plan : Plan Key Ak
  cw : Nat
  sel : Selection
  nb : Kind × Strat
  selected : List (Candidate Key Ak P)
  ins : List TxIn
  hplanned : plannedUtxos env t (t.fullUtxos luck.spend) = some planned
  hwv : (sortCandidates algo planned).mapM (weighted env) = some wv
  hq : t.txoutIndex.nextUnusedSpk (internalKeychain t) = some q
  ht : t' = { t with txoutIndex := q.1 }
  hd : q.1.keychains.get (internalKeychain t) = some d
  hplan : env.plan d q.2.1.1 = .ret (some plan)
  hcw : plan.expectedWeight env.lib = .ret cw
  hsel : runSelection algo luck (Selector.new wv (selectorOpt env d [⟨value, payee⟩] ⟨0, q.2.1.2⟩ cw)) = some (.ok sel)
  hnb : Selection.bestStrategy (luck.strategies.perm sel.strategies) = some nb
  happly : applySelection sel.selected (sortCandidates algo planned) = some selected
  hsign : signInputs env ⟨2, lockTimeOf t, selected.map unsignedInput, outputsOf ⟨value, payee⟩ ⟨0, q.2.1.2⟩ nb.2.drainValue⟩
    (selected.map fun c => c.2.txout) 0 selected = some (.ok ins)
  htx : c.tx = ⟨2, lockTimeOf t, ins, outputsOf ⟨value, payee⟩ ⟨0, q.2.1.2⟩ nb.2.drainValue⟩
  hchange : c.change = if nb.2.drainValue.isSome then some (q.2.2, (internalKeychain t, q.2.1.1)) else none

theorem createTx_steps {env : Env D Key Ak Sec XPrv Msg T} {luck : Luck} {t t' : Tracker Keychain D P T} {value : Nat} {payee : Script}
    {algo : Algo} {c : Created T} (h : createTx env luck t value payee algo = some (t', .ok c)) :
    Nonempty (Steps env luck t value payee algo t' c) := by
  unfold createTx at h
  cases h1 : plannedUtxos env t (t.fullUtxos luck.spend) with
  | none => rw [h1] at h; cases h
  | some planned =>
  rw [h1] at h
  simp only [Option.bind_eq_bind, Option.bind_some] at h
  cases h2 : (sortCandidates algo planned).mapM (weighted env) with
  | none => rw [h2] at h; cases h
  | some wv =>
  rw [h2] at h
  simp only [Option.bind_some] at h
  cases h3 : t.txoutIndex.nextUnusedSpk (internalKeychain t) with
  | none => rw [h3] at h; cases h
  | some q =>
  obtain ⟨index, ⟨ci, cs⟩, additions⟩ := q
  rw [h3] at h
  simp only [Option.bind_some] at h
  cases h4 : index.keychains.get (internalKeychain t) with
  | none => rw [h4] at h; cases h
  | some d =>
  rw [h4] at h
  simp only [Option.bind_some] at h
  cases h5 : env.plan d ci with
  | panic => rw [h5] at h; cases h
  | ret o =>
  rw [h5] at h
  cases o with
  | none => cases h
  | some plan =>
  simp only at h
  cases h6 : plan.expectedWeight env.lib with
  | panic => rw [h6] at h; cases h
  | ret cw =>
  rw [h6] at h
  simp only at h
  cases h7 : runSelection algo luck (Selector.new wv (selectorOpt env d [⟨value, payee⟩] ⟨0, cs⟩ cw)) with
  | none => rw [h7] at h; cases h
  | some r =>
  rw [h7] at h
  simp only [Option.bind_some] at h
  cases r with
  | error e => simp at h
  | ok sel =>
  simp only at h
  cases h8 : assemble env luck { t with txoutIndex := index } (sortCandidates algo planned) ⟨value, payee⟩ ⟨0, cs⟩
      (additions, (internalKeychain t, ci)) sel with
  | none => rw [h8] at h; cases h
  | some res =>
  rw [h8] at h
  simp only [Option.bind_some, Option.pure_def, Option.some.injEq, Prod.mk.injEq] at h
  obtain ⟨rfl, rfl⟩ := h
  obtain ⟨nb, selected, ins, e1, e2, e3, e4, e5⟩ := assemble_spec h8
  exact ⟨⟨planned, wv, _, d, plan, cw, sel, nb, selected, ins, h1, h2, h3, rfl, h4, h5, h6, h7, e1, e2, e3, e4, e5⟩⟩

/-! ### signing -/

theorem addRequirement_keys (l : List (TemplateItem Key Ak)) (acc : Requirements Key Ak × List (PlanKey Key Ak)) :
    ∀ k ∈ (l.foldl addRequirement acc).2, k ∈ acc.2 ∨ .sign k ∈ l := by
  induction l generalizing acc with
  | nil => intro k hk; exact .inl hk
  | cons i l ih =>
    intro k hk
    rcases ih _ k hk with h | h
    · cases i <;> simp only [addRequirement, List.mem_append, List.mem_singleton] at h <;> first
        | (rcases h with h | h
           · exact .inl h
           · exact .inr (by rw [h]; exact List.mem_cons_self))
        | exact .inl h
    · exact .inr (List.mem_cons_of_mem _ h)

theorem requirements_inv {lib : Lib Key} {p : Plan Key Ak} {r : Requirements Key Ak} (h : p.requirements lib = .ret r) :
    r.signatures = .legacy ∨
    (p.spend = .keySpend ∧ ∃ k, p.template = [.sign k] ∧ r = { signatures := .tapKey k (lib.merkleRoot p.tr) }) ∨
    (∃ s, p.spend = .leafSpend s ∧ ∃ ks, r.signatures = .tapScript (lib.leafHash s) ks ∧ ∀ k ∈ ks, .sign k ∈ p.template) := by
  unfold Plan.requirements at h
  cases hc : p.tryComplete lib {} with
  | panic => rw [hc] at h; cases h
  | ret st =>
  rw [hc] at h
  cases st with
  | complete w => cases h; exact .inl rfl
  | incomplete r' =>
    cases h
    right
    unfold Plan.tryComplete at hc
    simp only at hc
    by_cases hu : p.template.filter (TemplateItem.unsatisfied {}) = []
    · rw [if_pos hu] at hc
      cases hw : Plan.witnessOf lib {} p.template with
      | none => rw [hw] at hc; cases hc
      | some w =>
        rw [hw] at hc
        cases hs : p.spend with
        | keySpend => rw [hs] at hc; simp at hc
        | leafSpend s =>
          rw [hs] at hc
          cases hcb : lib.controlBlock p.tr s with
          | none => simp only [hcb] at hc; cases hc
          | some cb => simp [hcb] at hc
    · rw [if_neg hu] at hc
      cases hs : p.spend with
      | keySpend =>
        rw [hs] at hc
        simp only at hc
        left
        split at hc
        · rename_i k hk
          simp only [Out.ret.injEq, PlanState.incomplete.injEq] at hc
          exact ⟨rfl, k, hk, hc.symm⟩
        · cases hc
      | leafSpend s =>
        rw [hs] at hc
        simp only [Out.ret.injEq, PlanState.incomplete.injEq] at hc
        right
        refine ⟨s, rfl, _, by rw [← hc], ?_⟩
        intro k hk
        rcases addRequirement_keys _ _ k hk with h | h
        · cases h
        · exact (List.mem_filter.1 h).1

theorem signKeys_sigs (cr : Crypto Sec XPrv Msg) (km : Ak → Option (DSec Sec XPrv)) (hashTy : Nat) (msg : Msg)
    (ks : List (PlanKey Key Ak)) (b : Bool) (m : Material Key) :
    ∃ f, (signKeys cr km hashTy msg b m ks).1 = { m with schnorrSigs := f } ∧
      ∀ k s, f k = some s → m.schnorrSigs k = some s ∨ ∃ pk ∈ ks, pk.descriptorKey = k ∧ ∃ d sec, km pk.assetKey = some d ∧
        Planner.Spec.secretFor cr d pk.derivationHint = some sec ∧ s = ⟨cr.sign sec msg, hashTy⟩ := by
  induction ks generalizing b m with
  | nil => exact ⟨m.schnorrSigs, rfl, fun k s h => .inl h⟩
  | cons pk ks ih =>
    simp only [signKeys]
    cases hk : km pk.assetKey with
    | none =>
      obtain ⟨f, h1, h2⟩ := ih b m
      refine ⟨f, h1, fun k s h => ?_⟩
      rcases h2 k s h with h | ⟨x, hx, h⟩
      · exact .inl h
      · exact .inr ⟨x, List.mem_cons_of_mem _ hx, h⟩
    | some d =>
      simp only [signingKey_eq]
      cases hsec : Planner.Spec.secretFor cr d pk.derivationHint with
      | none => exact ⟨m.schnorrSigs, rfl, fun k s h => .inl h⟩
      | some sec =>
        obtain ⟨f, h1, h2⟩ := ih true (m.insertSig pk.descriptorKey ⟨cr.sign sec msg, hashTy⟩)
        refine ⟨f, h1, fun k s h => ?_⟩
        rcases h2 k s h with h | ⟨x, hx, h⟩
        · simp only [Material.insertSig] at h
          by_cases hkk : k = pk.descriptorKey
          · rw [if_pos hkk] at h
            exact .inr ⟨pk, List.mem_cons_self, hkk.symm, d, sec, hk, hsec, (Option.some.inj h).symm⟩
          · rw [if_neg hkk] at h; exact .inl h
        · exact .inr ⟨x, List.mem_cons_of_mem _ hx, h⟩

/-- what a successful iteration of the signing loop has done -/
theorem signInput_inv {env : Env D Key Ak Sec XPrv Msg T} {tx : BuiltTx} {po : List TxOut} {i : Nat} {p : Plan Key Ak}
    {w : List Planner.Bytes} (h : signInput env tx po i p = some (.ok w)) :
    ∃ f, p.tryComplete env.lib { schnorrSigs := f } = .ret (.complete w) ∧
      ((p.spend = .keySpend ∧ ∃ pk, p.template = [.sign pk] ∧ ∃ d sec msg, env.keymap pk.assetKey = some d ∧
        Planner.Spec.secretFor (env.crypto tx i po) d pk.derivationHint = some sec ∧ (env.crypto tx i po).keySpendHash = some msg ∧
        ∀ k s, f k = some s ↔ k = pk.descriptorKey ∧ s = ⟨(env.crypto tx i po).signTweaked sec (env.lib.merkleRoot p.tr) msg, 0⟩) ∨
      (∃ leaf, p.spend = .leafSpend leaf ∧ ∃ msg, (env.crypto tx i po).scriptSpendHash (env.lib.leafHash leaf) = some msg ∧
        ∀ k s, f k = some s → ∃ pk, .sign pk ∈ p.template ∧ pk.descriptorKey = k ∧ ∃ d sec, env.keymap pk.assetKey = some d ∧
          Planner.Spec.secretFor (env.crypto tx i po) d pk.derivationHint = some sec ∧ s = ⟨(env.crypto tx i po).sign sec msg, 0⟩)) := by
  unfold signInput at h
  cases hr : p.requirements env.lib with
  | panic => rw [hr] at h; cases h
  | ret r =>
  rw [hr] at h
  simp only at h
  cases hp : r.requiresPreimages with
  | true => rw [hp] at h; cases h
  | false =>
  rw [hp] at h
  simp only [Bool.false_eq_true, if_false] at h
  cases hsg : signWithKeymap (env.crypto tx i po) env.keymap 0 {} r.signatures with
  | panic => rw [hsg] at h; cases h
  | ret mr =>
  obtain ⟨m, res⟩ := mr
  rw [hsg] at h
  cases res with
  | error e => cases h
  | ok b =>
  cases b with
  | false => cases h
  | true =>
  simp only at h
  cases hc : p.tryComplete env.lib m with
  | panic => rw [hc] at h; cases h
  | ret st =>
  rw [hc] at h
  cases st with
  | incomplete r' => cases h
  | complete w' =>
  cases h
  rcases requirements_inv hr with hl | ⟨hs, k, ht, rfl⟩ | ⟨leaf, hs, ks, hks, hmem⟩
  · rw [hl] at hsg; cases hsg
  · simp only [signWithKeymap] at hsg
    cases hmsg : (env.crypto tx i po).keySpendHash with
    | none => rw [hmsg] at hsg; cases hsg
    | some msg =>
    rw [hmsg] at hsg
    simp only at hsg
    cases hkm : env.keymap k.assetKey with
    | none => rw [hkm] at hsg; cases hsg
    | some d =>
    rw [hkm] at hsg
    simp only [signingKey_eq] at hsg
    cases hsec : Planner.Spec.secretFor (env.crypto tx i po) d k.derivationHint with
    | none => rw [hsec] at hsg; cases hsg
    | some sec =>
    rw [hsec] at hsg
    simp only [Out.ret.injEq, Prod.mk.injEq] at hsg
    obtain ⟨rfl, -⟩ := hsg
    refine ⟨_, hc, .inl ⟨hs, k, ht, d, sec, msg, hkm, hsec, rfl, ?_⟩⟩
    intro k' s
    by_cases hk : k' = k.descriptorKey
    · simp only [hk, if_true, Option.some.injEq, true_and]; exact eq_comm
    · simp [hk]
  · rw [hks] at hsg
    simp only [signWithKeymap] at hsg
    cases hmsg : (env.crypto tx i po).scriptSpendHash (env.lib.leafHash leaf) with
    | none => rw [hmsg] at hsg; cases hsg
    | some msg =>
    rw [hmsg] at hsg
    simp only [Out.ret.injEq] at hsg
    obtain ⟨f, h1, h2⟩ := signKeys_sigs (env.crypto tx i po) env.keymap 0 msg ks false ({} : Material Key)
    rw [hsg] at h1
    simp only at h1
    subst h1
    refine ⟨f, hc, .inr ⟨leaf, hs, msg, hmsg, ?_⟩⟩
    intro k s hf
    rcases h2 k s hf with h | ⟨pk, hpk, e, h⟩
    · cases h
    · exact ⟨pk, hmem pk hpk, e, h⟩

theorem signInputs_inv {env : Env D Key Ak Sec XPrv Msg T} {tx : BuiltTx} {po : List TxOut} (l : List (Candidate Key Ak P)) :
    ∀ (n : Nat) (ins : List TxIn), signInputs env tx po n l = some (.ok ins) →
      ins.length = l.length ∧ ∀ j (c : Candidate Key Ak P), l[j]? = some c →
        ∃ w, ins[j]? = some { unsignedInput c with witness := w } ∧ signInput env tx po (n + j) c.1 = some (.ok w) := by
  induction l with
  | nil => intro n ins h; cases h; exact ⟨rfl, fun j c h => by simp at h⟩
  | cons c l ih =>
    intro n ins h
    simp only [signInputs] at h
    cases h1 : signInput env tx po n c.1 with
    | none => rw [h1] at h; cases h
    | some r =>
    rw [h1] at h
    cases r with
    | error e => cases h
    | ok w =>
    simp only at h
    cases h2 : signInputs env tx po (n + 1) l with
    | none => rw [h2] at h; cases h
    | some r =>
    rw [h2] at h
    cases r with
    | error e => cases h
    | ok ins' =>
    cases h
    obtain ⟨a, b⟩ := ih _ _ h2
    refine ⟨by simp [a], ?_⟩
    intro j c' hj
    cases j with
    | zero => simp at hj; subst hj; exact ⟨w, rfl, h1⟩
    | succ j =>
      obtain ⟨w', e1, e2⟩ := b j c' (by simpa using hj)
      exact ⟨w', by simpa using e1, by rw [show n + (j + 1) = n + 1 + j by omega]; exact e2⟩

end Verif.Cli
