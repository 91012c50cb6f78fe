import Verif.Lemmas.CreateTx3

/-!
# `create_tx` does not panic
-/

set_option linter.unusedSectionVars false

namespace Verif.Cli
open Verif Verif.CoinSelect Verif.Planner Verif.Spec Verif.Props Verif.Cli.Spec
open Verif.CoinSelect.Spec (counterLen)

variable {D Key Ak Sec XPrv Msg T P : Type} [DescriptorOps D] [DecidableEq D] [LinearOrder P] [ChainPosition P] [LinearOrder T]
  [AsTransaction T] [DecidableEq Key] [LawfulChainPosition P] [LawfulTx T]
  {env : Env D Key Ak Sec XPrv Msg T} {luck : Luck} {t t' : Tracker Keychain D P T} {value : Nat} {payee : Script}
  {algo : Algo}

theorem found_known {s : KeychainIndex Keychain D} (hi : KeychainIndex.Inv s) {o : OutPoint} {k : Keychain} {i : Nat} {x : TxOut}
    (h : s.inner.txout o = some (toLex (k, i), x)) : ∃ d, s.keychains.get k = some d := by
  obtain ⟨hh, he, hf⟩ := hi.hist
  rw [he] at h
  obtain ⟨h1, h2, e1, e2, -⟩ := (SpkIndex.run_txouts hh o _ x).1 h
  have hins : Inserted hh (toLex (k, i)) := by
    obtain ⟨a, b, c, e⟩ := e2
    exact ⟨x.spk, a, b ++ .scanTxout o x :: h2, by rw [e1, c]; simp, e⟩
  obtain ⟨spk, hspk⟩ := (SpkIndex.run_spks_isSome hh (toLex (k, i))).2 hins
  rw [← he] at hspk
  obtain ⟨d, hd, -⟩ := KeychainIndex.stored_known hi hspk
  exact ⟨d, hd⟩

theorem plan_ret (hc : CanSign env) (d : D) (i : Nat) : ∃ o, env.plan d i = .ret o := by
  unfold Env.plan planTr
  cases findKey env.canDerive env.assets.keys (env.trAt d i).internalKey with
  | some pk => exact ⟨_, rfl⟩
  | none =>
    obtain ⟨ps, hps⟩ := leafPlans_ret (cd := env.canDerive) (a := env.assets) (ls := (env.trAt d i).leaves) (by
      intro l hl
      obtain ⟨o, ho⟩ := supported_no_panic env.canDerive env.assets l.2 (hc.leaves d i l hl).1
      rw [ho]; simp)
    rw [hps]
    simp only
    cases smallest ps with
    | none => exact ⟨_, rfl⟩
    | some x => exact ⟨_, rfl⟩

theorem plannedUtxos_ret (hc : CanSign env) : ∀ (l : List ((Keychain × Nat) × FullTxOut P)),
    (∀ e ∈ l, ∃ d, t.txoutIndex.keychains.get e.1.1 = some d) → ∃ r, plannedUtxos env t l = some r := by
  intro l
  induction l with
  | nil => intro _; exact ⟨[], rfl⟩
  | cons e l ih =>
    intro h
    obtain ⟨ki, f⟩ := e
    obtain ⟨d, hd⟩ := h _ List.mem_cons_self
    obtain ⟨r, hr⟩ := ih (fun x hx => h x (List.mem_cons_of_mem _ hx))
    obtain ⟨o, ho⟩ := plan_ret hc d ki.2
    simp only at hd
    simp only [plannedUtxos, hd, ho, hr]
    cases o with
    | none => exact ⟨_, rfl⟩
    | some p => exact ⟨_, rfl⟩

theorem expectedWeight_ret (hc : CanSign env) {d : D} {i : Nat} {p : Plan Key Ak} (hp : env.plan d i = .ret (some p)) :
    ∃ w, p.expectedWeight env.lib = .ret w := by
  rcases planTr_cases hp with ⟨pk, -, rfl⟩ | ⟨-, b, dd, ms, af, tp, e, -, rfl, -⟩
  · exact ⟨_, rfl⟩
  · have := (hc.leaves d i (dd, ms) (by rw [e]; simp)).2.2
    obtain ⟨cb, hcb⟩ := Option.isSome_iff_exists.1 this
    unfold Plan.expectedWeight
    simp only at hcb ⊢
    rw [hcb]
    exact ⟨_, rfl⟩

theorem signInput_ok (hc : CanSign env) {d : D} {n : Nat} {p : Plan Key Ak} (hp : env.plan d n = .ret (some p)) {tx : BuiltTx}
    {po : List TxOut} {i : Nat} (hi : i < tx.input.length) (hpo : po.length = tx.input.length) :
    ∃ w, signInput env tx po i p = some (.ok w) := by
  obtain ⟨-, -, htr, hkey⟩ := env_plan hp
  unfold signInput
  cases hs : p.spend with
  | keySpend =>
    obtain ⟨msg, hmsg⟩ := Option.isSome_iff_exists.1 (hc.keyHash tx i po hi hpo)
    obtain ⟨r, m', sec, ak, s, hint, -, -, -, -, h1, h2, h3⟩ := C57_key_spend env.lib env.canDerive (env.trAt d n) env.assets p hp hs
      (env.crypto tx i po) env.keymap 0 (fun ak hak => by
        obtain ⟨s, e1, e2⟩ := hc.keys ak hak
        exact ⟨s, e1, e2 tx i po⟩) msg hmsg {}
    have hpre : r.requiresPreimages = false := by
      rcases requirements_inv h1 with hl | ⟨-, k, -, rfl⟩ | ⟨leaf, hs', -⟩
      · rw [hl] at h2; cases h2
      · rfl
      · rw [hs] at hs'; cases hs'
    rw [h1]
    simp only [hpre, Bool.false_eq_true, if_false, h2, h3]
    exact ⟨_, rfl⟩
  | leafSpend leaf =>
    have hcb : ∀ l ∈ (env.trAt d n).leaves, (env.lib.controlBlock (env.trAt d n) (env.lib.encode l.2)).isSome :=
      fun l hl => (hc.leaves d n l hl).2.2
    have hsign : ∃ k, .sign k ∈ p.template := by
      rcases planTr_cases hp with ⟨pk, -, rfl⟩ | ⟨-, b, dd, ms, af, tp, e, h1, rfl, -⟩
      · exact ⟨pk, by simp⟩
      · exact (keysOnly_plan _ _ _ _ h1).2.2 (hc.leaves d n (dd, ms) (by rw [e]; simp)).2.1
    obtain ⟨k0, hk0⟩ := hsign
    rcases C52_try_complete_leaf env.lib env.canDerive (env.trAt d n) env.assets p hp leaf hs hcb {} with ⟨w, -, h2⟩ | ⟨r, h1, -, h3⟩
    · have := h2 _ hk0
      simp [TemplateItem.unsatisfied] at this
    · have hr : p.requirements env.lib = .ret r := by unfold Plan.requirements; rw [h1]
      have no : ∀ i ∈ p.template, ∀ h, i ≠ .sha256 h ∧ i ≠ .hash160 h ∧ i ≠ .hash256 h ∧ i ≠ .ripemd160 h := by
        intro i hi h
        rcases hkey i hi with ⟨k, rfl⟩ | ⟨k, rfl⟩ | rfl | rfl <;> simp
      have e1 : r.sha256 = [] := List.eq_nil_iff_forall_not_mem.2 fun h hm => (no _ ((h3.sha256 h).1 hm).1 h).1 rfl
      have e2 : r.hash160 = [] := List.eq_nil_iff_forall_not_mem.2 fun h hm => (no _ ((h3.hash160 h).1 hm).1 h).2.1 rfl
      have e3 : r.hash256 = [] := List.eq_nil_iff_forall_not_mem.2 fun h hm => (no _ ((h3.hash256 h).1 hm).1 h).2.2.1 rfl
      have e4 : r.ripemd160 = [] := List.eq_nil_iff_forall_not_mem.2 fun h hm => (no _ ((h3.ripemd160 h).1 hm).1 h).2.2.2 rfl
      have hpre : r.requiresPreimages = false := by simp [Requirements.requiresPreimages, e1, e2, e3, e4]
      obtain ⟨msg, hmsg⟩ := Option.isSome_iff_exists.1 (hc.scriptHash tx i po (env.lib.leafHash leaf) hi hpo)
      have hks := h3.keys
      set ks := p.template.filterMap (fun i => match i with
        | .sign k => if ({} : Material Key).schnorrSigs k.descriptorKey = none then some k else none
        | _ => none) with hksdef
      have hmem : ∀ k, k ∈ ks ↔ .sign k ∈ p.template := by
        intro k
        rw [hksdef, List.mem_filterMap]
        constructor
        · rintro ⟨x, hx, hx'⟩
          cases x <;> simp at hx'
          subst hx'; exact hx
        · intro hk; exact ⟨_, hk, by simp⟩
      have hne : ks.isEmpty = false := by
        cases hk : ks with
        | nil => have := (hmem k0).2 hk0; rw [hk] at this; cases this
        | cons _ _ => rfl
      obtain ⟨m', w, a1, a2⟩ := C57_signing_completes env.lib env.canDerive (env.trAt d n) env.assets p hp hcb (env.crypto tx i po)
        env.keymap 0 r hr _ ks hks msg hmsg (fun k hk => by
          obtain ⟨q1, -⟩ := C52_plan_keys_derive env.lib env.canDerive (env.trAt d n) env.assets p hp k ((hmem k).1 hk)
          obtain ⟨s, e1, e2⟩ := hc.keys _ q1
          exact ⟨s, e1, e2 tx i po _⟩) {} (by rw [e1]; simp) (by rw [e2]; simp) (by rw [e3]; simp) (by rw [e4]; simp)
      rw [hne] at a1
      rw [hr]
      simp only [hpre, Bool.false_eq_true, if_false, a1, Bool.not_false, a2]
      exact ⟨_, rfl⟩

theorem signInputs_ok (hc : CanSign env) {tx : BuiltTx} {po : List TxOut} (hpo : po.length = tx.input.length) :
    ∀ (l : List (Candidate Key Ak P)) (n : Nat), n + l.length ≤ tx.input.length →
      (∀ x ∈ l, ∃ d i, env.plan d i = .ret (some x.1)) → ∃ ins, signInputs env tx po n l = some (.ok ins) := by
  intro l
  induction l with
  | nil => intro n _ _; exact ⟨[], rfl⟩
  | cons x l ih =>
    intro n hn hp
    simp only [List.length_cons] at hn
    obtain ⟨d, i, hx⟩ := hp x List.mem_cons_self
    obtain ⟨w, hw⟩ := signInput_ok hc hx (tx := tx) (po := po) (i := n) (by omega) hpo
    obtain ⟨ins, hins⟩ := ih (n + 1) (by omega) (fun y hy => hp y (List.mem_cons_of_mem _ hy))
    simp only [signInputs, hw, hins]
    exact ⟨_, rfl⟩

/-- signing never reports an error of coin selection -/
theorem signInputs_no_selection {tx : BuiltTx} {po : List TxOut} {e : SelErr} :
    ∀ (l : List (Candidate Key Ak P)) (n : Nat), signInputs env tx po n l ≠ some (.error (.selection e)) := by
  intro l
  induction l with
  | nil => intro n h; cases h
  | cons x l ih =>
    intro n h
    simp only [signInputs] at h
    cases h1 : signInput env tx po n x.1 with
    | none => rw [h1] at h; cases h
    | some r =>
      rw [h1] at h
      cases r with
      | error e' =>
        simp only [Option.some.injEq, Except.error.injEq] at h
        subst h
        unfold signInput at h1
        cases h2 : x.1.requirements env.lib with
        | panic => rw [h2] at h1; cases h1
        | ret r =>
          rw [h2] at h1
          simp only at h1
          by_cases hp : r.requiresPreimages = true
          · rw [if_pos hp] at h1; cases h1
          · rw [if_neg hp] at h1
            rcases h3 : signWithKeymap (env.crypto tx n po) env.keymap 0 {} r.signatures with ⟨m, re⟩ | _
            · rw [h3] at h1
              rcases re with e' | b
              · cases h1
              · cases b with
                | false => cases h1
                | true =>
                  simp only at h1
                  cases h4 : x.1.tryComplete env.lib m with
                  | panic => rw [h4] at h1; cases h1
                  | ret o => rw [h4] at h1; cases o <;> cases h1
            · rw [h3] at h1; cases h1
      | ok w =>
        simp only at h
        cases h2 : signInputs env tx po (n + 1) l with
        | none => rw [h2] at h; cases h
        | some r2 =>
          rw [h2] at h
          cases r2 with
          | error e' =>
            simp only [Option.some.injEq, Except.error.injEq] at h
            subst h
            exact ih _ h2
          | ok ins => cases h

theorem assemble_no_selection {cands : List (Candidate Key Ak P)} {payment change : TxOut} {info} {sel : Selection} {e : SelErr}
    (h : assemble env luck t cands payment change info sel = some (.error (.selection e))) : False := by
  unfold assemble at h
  cases hb : Selection.bestStrategy (luck.strategies.perm sel.strategies) with
  | none => rw [hb] at h; cases h
  | some nb =>
    rw [hb] at h
    simp only [Option.bind_eq_bind, Option.bind_some] at h
    cases hs : applySelection sel.selected cands with
    | none => rw [hs] at h; cases h
    | some selected =>
      rw [hs] at h
      simp only [Option.bind_some] at h
      revert h
      generalize hq : signInputs env _ _ 0 selected = q
      cases q with
      | none => intro h; cases h
      | some r =>
        cases r with
        | error e' =>
          intro h
          simp only [Option.bind_some, Option.pure_def, Option.some.injEq, Except.error.injEq] at h
          subst h
          exact signInputs_no_selection _ _ hq
        | ok ins => intro h; cases h

end Verif.Cli
