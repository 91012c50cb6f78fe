import Verif.Lemmas.Plan5

/-!
# C52, C53: spending plans

Everything is about taproot descriptors: for all others `plan_satisfaction` is `todo!()`.
-/

namespace Verif.Planner
open Verif.Tapscript Spec

variable {Key Ak : Type}

/-! ## C52: when there is a plan -/

/-- The lock times of the expression are written without meaningless bits, and the absolute ones are within what the
assets allow. -/
structure Spec.PlainTimes (a : Assets Ak) (ms : Ms Key) : Prop where
  olders : Olders CleanSeq ms
  afters : ∀ m, a.maxLocktime = some m → Afters (fun n => m.sameUnit (.ofConsensus n) = true ∧ n ≤ m.toConsensus) ms

/-- **C52** (soundness and completeness): for a taproot descriptor made of supported fragments, planning does not panic,
and returns a plan exactly if the internal key can be derived or the assets meet the policy of some leaf — provided no
absolute lock time in the leaves is beyond the assets' maximum. -/
theorem C52_plan_iff_affordable (lib : Lib Key) (cd : Ak → Key → Option Path) (tr : Tr Key) (a : Assets Ak)
    (hs : ∀ l ∈ tr.leaves, Supported l.2) (ht : ∀ l ∈ tr.leaves, PlainTimes a l.2)
    (hage : ∀ age, a.txoAge = some age → CleanSeq age) :
    ∃ o, planTr lib cd tr a = .ret o ∧
      (o.isSome ↔ (∃ ak ∈ a.keys, (cd ak tr.internalKey).isSome) ∨ ∃ l ∈ tr.leaves, Affordable cd a l.2) := by
  have hl : ∀ l ∈ tr.leaves, ∃ o, planSteps cd a l.2 = .ret o ∧ (o.isSome ↔ Affordable cd a l.2) :=
    fun l hl => plan_iff cd a l.2 (hs l hl) (ht l hl).olders hage (ht l hl).afters
  cases hk : findKey cd a.keys tr.internalKey with
  | some pk =>
    refine ⟨some ⟨[.sign pk], tr, .keySpend, none, none⟩, by simp [planTr, hk], ?_⟩
    have : (findKey cd a.keys tr.internalKey).isSome := by rw [hk]; rfl
    rw [findKey_isSome] at this
    simp only [Option.isSome_some, true_iff]
    exact .inl this
  | none =>
    have hno : ¬ ∃ ak ∈ a.keys, (cd ak tr.internalKey).isSome := by
      rw [← findKey_isSome, hk]; simp
    obtain ⟨ps, hps⟩ := leafPlans_ret (cd := cd) (a := a) (ls := tr.leaves) (fun l h => by
      obtain ⟨o, e, _⟩ := hl l h
      rw [e]; simp)
    have hret : ∃ o, planTr lib cd tr a = .ret o := by
      unfold planTr
      rw [hk, hps]
      simp only
      cases smallest ps with
      | none => exact ⟨_, rfl⟩
      | some x => exact ⟨_, rfl⟩
    obtain ⟨o, ho⟩ := hret
    refine ⟨o, ho, ?_⟩
    cases o with
    | none =>
      have := (planTr_none_iff.1 ho).2
      simp only [Option.isSome_none, Bool.false_eq_true, false_iff, not_or]
      refine ⟨hno, ?_⟩
      rintro ⟨l, h, haf⟩
      obtain ⟨o, e, hi⟩ := hl l h
      rw [this l h] at e
      cases e
      simp at hi
      exact hi haf
    | some p =>
      simp only [Option.isSome_some, true_iff]
      right
      rcases planTr_cases ho with ⟨pk, h, _⟩ | ⟨_, b, d, ms, af, tp, e, h, _⟩
      · rw [hk] at h; cases h
      · have hm : (d, ms) ∈ tr.leaves := by rw [e]; simp
        obtain ⟨o, e', hi⟩ := hl _ hm
        simp only at e'
        rw [h] at e'
        cases e'
        exact ⟨_, hm, hi.1 rfl⟩

/-- **C52** (key path): whenever some asset key derives the internal key, the plan is the key spend with the first such
key, needs one signature and nothing else. -/
theorem C52_key_path_first (lib : Lib Key) (cd : Ak → Key → Option Path) (tr : Tr Key) (a : Assets Ak) (ak : Ak)
    (before after : List Ak) (hint : Path) (hk : a.keys = before ++ ak :: after)
    (hb : ∀ x ∈ before, cd x tr.internalKey = none) (hak : cd ak tr.internalKey = some hint) :
    planTr lib cd tr a = .ret (some ⟨[.sign ⟨ak, hint, tr.internalKey⟩], tr, .keySpend, none, none⟩) := by
  have : findKey cd a.keys tr.internalKey = some ⟨ak, hint, tr.internalKey⟩ := by
    unfold findKey
    rw [hk, List.findSome?_append]
    have h0 : List.findSome? (fun a => (cd a tr.internalKey).map fun hint => (⟨a, hint, tr.internalKey⟩ : PlanKey Key Ak)) before = none := by
      rw [List.findSome?_eq_none_iff]
      intro x hx
      simp [hb x hx]
    rw [h0]
    simp [hak]
  simp [planTr, this]

/-- **C52** (script path): without the internal key, the plan is that of the first leaf whose arguments are expected to
be smallest among the leaves that have a plan. -/
theorem C52_picks_smallest_leaf (lib : Lib Key) (cd : Ak → Key → Option Path) (tr : Tr Key) (a : Assets Ak)
    (p : Plan Key Ak) (h : planTr lib cd tr a = .ret (some p)) (s : Bytes) (hs : p.spend = .leafSpend s) :
    (∀ ak ∈ a.keys, cd ak tr.internalKey = none) ∧
    ∃ before d ms after tp, tr.leaves = before ++ (d, ms) :: after ∧ s = lib.encode ms ∧
      planSteps cd a ms = .ret (some tp) ∧ p.template = tp.template ∧
      p.requiredLocktime = tp.minLocktime ∧ p.requiredSequence = tp.minSequence ∧
      (∀ l ∈ before, ∀ q, planSteps cd a l.2 = .ret (some q) → tp.expectedSize < q.expectedSize) ∧
      (∀ l ∈ after, ∀ q, planSteps cd a l.2 = .ret (some q) → tp.expectedSize ≤ q.expectedSize) := by
  rcases planTr_cases h with ⟨pk, _, e⟩ | ⟨hk, b, d, ms, af, tp, e, h1, h2, h3, h4⟩
  · subst e; simp at hs
  · subst h2
    simp at hs
    refine ⟨?_, b, d, ms, af, tp, e, hs.symm, h1, rfl, rfl, rfl, h3, h4⟩
    intro ak hak
    by_contra hc
    have : (findKey cd a.keys tr.internalKey).isSome :=
      (findKey_isSome _ _ _).2 ⟨ak, hak, Option.isSome_iff_ne_none.2 hc⟩
    rw [hk] at this
    simp at this

/-- **C52**: keys in the plan are asset keys that derive the key they sign for, with the hint that says how. -/
theorem C52_plan_keys_derive (lib : Lib Key) (cd : Ak → Key → Option Path) (tr : Tr Key) (a : Assets Ak)
    (p : Plan Key Ak) (h : planTr lib cd tr a = .ret (some p)) (k : PlanKey Key Ak) (hk : .sign k ∈ p.template) :
    k.assetKey ∈ a.keys ∧ cd k.assetKey k.descriptorKey = some k.derivationHint := by
  have main : ∀ (ms : Ms Key) (tp : TermPlan Key Ak), planSteps cd a ms = .ret (some tp) → .sign k ∈ tp.template →
      k.assetKey ∈ a.keys ∧ cd k.assetKey k.descriptorKey = some k.derivationHint := by
    intro ms
    induction ms with
    | tru => intro tp hp hm; simp [planSteps] at hp; simp [← hp] at hm
    | after n => intro tp hp hm; simp [planSteps] at hp; simp [(planAfter_inv hp).2] at hm
    | older n => intro tp hp hm; simp [planSteps] at hp; simp [(planOlder_inv hp).2] at hm
    | pkK q =>
      intro tp hp hm
      simp [planSteps] at hp
      obtain ⟨pk, h1, e⟩ := hp
      simp [← e] at hm
      subst hm
      obtain ⟨h2, h3, h4⟩ := findKey_spec h1
      exact ⟨h3, by rw [h2]; exact h4⟩
    | pkH q =>
      intro tp hp hm
      simp [planSteps] at hp
      obtain ⟨pk, h1, e⟩ := hp
      simp [← e] at hm
      subst hm
      obtain ⟨h2, h3, h4⟩ := findKey_spec h1
      exact ⟨h3, by rw [h2]; exact h4⟩
    | sha256 q | hash256 q | ripemd160 q | hash160 q =>
      intro tp hp hm
      simp [planSteps] at hp
      simp [← hp.2] at hm
    | alt x ih | swap x ih | check x ih | verify x ih | nonZero x ih | zeroNotEqual x ih =>
      intro tp hp hm
      simp only [planSteps] at hp
      exact ih tp hp hm
    | dupIf x ih =>
      intro tp hp hm
      obtain ⟨q, hq, e⟩ := dupIf_inv hp
      subst e
      simp [TermPlan.push] at hm
      exact ih q hq hm
    | andV x y ihx ihy =>
      intro tp hp hm
      rw [andV_eq_andB] at hp
      obtain ⟨l, r, h1, h2, h3⟩ := andB_inv hp
      rw [(combine_eq h3).2.2] at hm
      rcases List.mem_append.1 hm with hm | hm
      · exact ihx l h1 hm
      · exact ihy r h2 hm
    | andB x y ihx ihy =>
      intro tp hp hm
      obtain ⟨l, r, h1, h2, h3⟩ := andB_inv hp
      rw [(combine_eq h3).2.2] at hm
      rcases List.mem_append.1 hm with hm | hm
      · exact ihx l h1 hm
      · exact ihy r h2 hm
    | orI x y ihx ihy =>
      intro tp hp hm
      rcases orI_inv hp with ⟨q, hq, e⟩ | ⟨q, hq, e⟩
      · subst e
        simp [TermPlan.push] at hm
        exact ihx q hq hm
      · subst e
        simp [TermPlan.push] at hm
        exact ihy q hq hm
    | _ => intro tp hp; simp [planSteps] at hp
  rcases planTr_cases h with ⟨pk, hpk, e⟩ | ⟨_, b, d, ms, af, tp, _, h1, h2, _⟩
  · subst e
    simp at hk
    subst hk
    obtain ⟨h2, h3, h4⟩ := findKey_spec hpk
    exact ⟨h3, by rw [h2]; exact h4⟩
  · subst h2
    exact main ms tp h1 hk

/-! ## C52: the completed witness spends the coin -/

/-- What the planner needs of a leaf for its witness to be right: it is a well-typed expression of supported fragments,
`and` never joins two parts that both take arguments, there is no `pk_h`, relative lock times are plainly written. -/
structure Spec.PlainLeaf (ms : Ms Key) : Prop where
  typed : ∃ z o n, typeOf ms = some ⟨.B, z, o, n⟩
  oneSided : OneSided ms
  noPkH : NoPkH ms
  olders : Olders CleanSeq ms

/-- **C52**: completing a script-path plan with genuine signatures and preimages, in a transaction with the version, lock
time and sequence the plan asks for, gives a witness whose arguments unlock a leaf of the descriptor (followed by that
leaf's script and control block). -/
theorem C52_witness_unlocks (lib : Lib Key) (xonly : Key → Bytes) (hx : ∀ k, (xonly k).length = 32)
    (cd : Ak → Key → Option Path) (tr : Tr Key) (a : Assets Ak) (p : Plan Key Ak)
    (hleaf : ∀ l ∈ tr.leaves, PlainLeaf l.2)
    (h : planTr lib cd tr a = .ret (some p)) (s : Bytes) (hs : p.spend = .leafSpend s)
    (c : Ctx) (m : Material Key) (gen : Genuine xonly c m)
    (meets : Meets c p.minVersion p.requiredLocktime p.requiredSequence)
    (w : List Bytes) (hw : p.tryComplete lib m = .ret (.complete w)) :
    ∃ ms cb args, ms ∈ tr.leaves.map Prod.snd ∧ lib.controlBlock tr (lib.encode ms) = some cb ∧
      w = args ++ [lib.encode ms, cb] ∧ Unlocks c (compile xonly c.hash160 ms) args := by
  rcases planTr_cases h with ⟨pk, _, e⟩ | ⟨hk, b, d, ms, af, tp, e, h1, h2, h3, h4⟩
  · subst e; simp at hs
  · have hm : (d, ms) ∈ tr.leaves := by rw [e]; simp
    obtain ⟨⟨z, o, n, ht⟩, ho, hp, hol⟩ := hleaf _ hm
    have hcx : CtxOk c tp.minLocktime tp.minSequence := by
      subst h2
      refine ⟨meets.locktime, ?_⟩
      intro q hq
      refine ⟨meets.sequence q hq, meets.version 2 ?_⟩
      simp [Plan.minVersion, hq]
    subst h2
    unfold Plan.tryComplete at hw
    simp only at hw
    by_cases hu : tp.template.filter (TemplateItem.unsatisfied m) = []
    · rw [if_pos hu] at hw
      cases hwit : Plan.witnessOf lib m tp.template with
      | none => rw [hwit] at hw; simp at hw
      | some args =>
        rw [hwit] at hw
        simp only at hw
        cases hcb : lib.controlBlock tr (lib.encode ms) with
        | none => rw [hcb] at hw; simp at hw
        | some cb =>
          rw [hcb] at hw
          simp at hw
          have g := good_of_plan lib xonly hx c m gen cd a ms _ tp args ht h1 ho hp hol hcx hwit
          obtain ⟨v, hv, hv1, _⟩ := g.runs [] []
          refine ⟨ms, cb, args, List.mem_map.2 ⟨_, hm, rfl⟩, hcb, hw.symm, v, [], ?_, hv1⟩
          simpa using hv
    · rw [if_neg hu] at hw
      simp at hw

/-! ## C52: completion and requirements -/

/-- what is missing in `m` for the items `t` of a script spend, as `r` reports it -/
structure Spec.ListsMissing (m : Material Key) (t : List (TemplateItem Key Ak)) (leafHash : Bytes)
    (r : Requirements Key Ak) : Prop where
  keys : r.signatures = .tapScript leafHash
    (t.filterMap fun i => match i with
      | .sign k => if m.schnorrSigs k.descriptorKey = none then some k else none
      | _ => none)
  sha256 : ∀ h, h ∈ r.sha256 ↔ .sha256 h ∈ t ∧ m.sha256 h = none
  hash160 : ∀ h, h ∈ r.hash160 ↔ .hash160 h ∈ t ∧ m.hash160 h = none
  hash256 : ∀ h, h ∈ r.hash256 ↔ .hash256 h ∈ t ∧ m.hash256 h = none
  ripemd160 : ∀ h, h ∈ r.ripemd160 ↔ .ripemd160 h ∈ t ∧ m.ripemd160 h = none

theorem filter_signKey (m : Material Key) (t : List (TemplateItem Key Ak)) :
    (t.filter (TemplateItem.unsatisfied m)).filterMap signKey = t.filterMap fun i => match i with
      | .sign k => if m.schnorrSigs k.descriptorKey = none then some k else none
      | _ => none := by
  induction t with
  | nil => rfl
  | cons i is ih =>
    rw [List.filter_cons, List.filterMap_cons, ← ih]
    cases i with
    | sign k =>
      cases hk : m.schnorrSigs k.descriptorKey with
      | none => simp [TemplateItem.unsatisfied, hk, List.filterMap_cons, signKey]
      | some s => simp [TemplateItem.unsatisfied, hk]
    | pk k => simp [TemplateItem.unsatisfied]
    | one => simp [TemplateItem.unsatisfied]
    | zero => simp [TemplateItem.unsatisfied]
    | sha256 h => cases hh : m.sha256 h <;> simp [TemplateItem.unsatisfied, hh, List.filterMap_cons, signKey]
    | hash256 h => cases hh : m.hash256 h <;> simp [TemplateItem.unsatisfied, hh, List.filterMap_cons, signKey]
    | ripemd160 h => cases hh : m.ripemd160 h <;> simp [TemplateItem.unsatisfied, hh, List.filterMap_cons, signKey]
    | hash160 h => cases hh : m.hash160 h <;> simp [TemplateItem.unsatisfied, hh, List.filterMap_cons, signKey]

/-- **C52** (script path): `try_complete` never panics if control blocks exist for the leaves; it completes exactly when
nothing is missing, and otherwise reports exactly the keys and images that are missing. -/
theorem C52_try_complete_leaf (lib : Lib Key) (cd : Ak → Key → Option Path) (tr : Tr Key) (a : Assets Ak)
    (p : Plan Key Ak) (h : planTr lib cd tr a = .ret (some p)) (s : Bytes) (hs : p.spend = .leafSpend s)
    (hcb : ∀ l ∈ tr.leaves, (lib.controlBlock tr (lib.encode l.2)).isSome) (m : Material Key) :
    (∃ w, p.tryComplete lib m = .ret (.complete w) ∧ ∀ i ∈ p.template, i.unsatisfied m = false) ∨
    (∃ r, p.tryComplete lib m = .ret (.incomplete r) ∧ (∃ i ∈ p.template, i.unsatisfied m = true) ∧
      ListsMissing m p.template (lib.leafHash s) r) := by
  rcases planTr_cases h with ⟨pk, _, e⟩ | ⟨hk, b, d, ms, af, tp, e, h1, h2, h3, h4⟩
  · subst e; simp at hs
  · have hm : (d, ms) ∈ tr.leaves := by rw [e]; simp
    obtain ⟨cb, hcb⟩ := Option.isSome_iff_exists.1 (hcb _ hm)
    subst h2
    simp at hs
    subst hs
    unfold Plan.tryComplete
    simp only at hcb ⊢
    by_cases hu : tp.template.filter (TemplateItem.unsatisfied m) = []
    · left
      rw [if_pos hu]
      obtain ⟨w, hw⟩ := witnessOf_isSome (lib := lib) hu
      rw [hw]
      simp only [hcb]
      refine ⟨_, rfl, ?_⟩
      intro i hi
      have := List.filter_eq_nil_iff.1 hu i hi
      simpa using this
    · right
      rw [if_neg hu]
      refine ⟨_, rfl, ?_, ?_⟩
      · by_contra hc
        apply hu
        rw [List.filter_eq_nil_iff]
        intro i hi hc'
        exact hc ⟨i, hi, hc'⟩
      · obtain ⟨f1, f2, f3, f4, f5⟩ :=
          foldl_addRequirement (tp.template.filter (TemplateItem.unsatisfied m)) (({} : Requirements Key Ak), [])
        refine ⟨?_, ?_, ?_, ?_, ?_⟩
        · simp only [f1, List.nil_append]
          rw [filter_signKey]
        · intro h; simp only [f2]; simp [TemplateItem.unsatisfied]
        · intro h; simp only [f3]; simp [TemplateItem.unsatisfied]
        · intro h; simp only [f4]; simp [TemplateItem.unsatisfied]
        · intro h; simp only [f5]; simp [TemplateItem.unsatisfied]

/-- **C52** (key path): completes exactly with a signature for the internal key, whose bytes are the whole witness;
otherwise that signature is what is required. -/
theorem C52_try_complete_key (lib : Lib Key) (cd : Ak → Key → Option Path) (tr : Tr Key) (a : Assets Ak)
    (p : Plan Key Ak) (h : planTr lib cd tr a = .ret (some p)) (hs : p.spend = .keySpend) (m : Material Key) :
    match m.schnorrSigs tr.internalKey with
    | some sig => p.tryComplete lib m = .ret (.complete [sig.toVec])
    | none => ∃ k, k.descriptorKey = tr.internalKey ∧
        p.tryComplete lib m = .ret (.incomplete { signatures := .tapKey k (lib.merkleRoot tr) }) := by
  rcases planTr_cases h with ⟨pk, hpk, e⟩ | ⟨_, b, d, ms, af, tp, _, _, h2, _⟩
  · have hd := (findKey_spec hpk).1
    subst e
    cases hsig : m.schnorrSigs tr.internalKey with
    | some sig =>
      simp [Plan.tryComplete, TemplateItem.unsatisfied, hd, hsig, Plan.witnessOf, TemplateItem.toWitness]
    | none =>
      refine ⟨pk, hd, ?_⟩
      simp [Plan.tryComplete, TemplateItem.unsatisfied, hd, hsig]
  · subst h2; simp at hs

/-- what `requirements()` lists is at hand -/
def Spec.Supplies (m : Material Key) (r : Requirements Key Ak) : Prop :=
  (match r.signatures with
    | .legacy => True
    | .tapKey k _ => (m.schnorrSigs k.descriptorKey).isSome
    | .tapScript _ ks => ∀ k ∈ ks, (m.schnorrSigs k.descriptorKey).isSome) ∧
  (∀ h ∈ r.sha256, (m.sha256 h).isSome) ∧ (∀ h ∈ r.hash160, (m.hash160 h).isSome) ∧
  (∀ h ∈ r.hash256, (m.hash256 h).isSome) ∧ (∀ h ∈ r.ripemd160, (m.ripemd160 h).isSome)

theorem unsatisfied_of_empty {i : TemplateItem Key Ak} {m : Material Key} (h : i.unsatisfied m = true) :
    i.unsatisfied ({} : Material Key) = true := by
  cases i <;> simp [TemplateItem.unsatisfied] at h ⊢

/-- **C52**: supplying what `requirements()` lists is necessary and sufficient to complete the plan. -/
theorem C52_requirements_exact (lib : Lib Key) (cd : Ak → Key → Option Path) (tr : Tr Key) (a : Assets Ak)
    (p : Plan Key Ak) (h : planTr lib cd tr a = .ret (some p))
    (hcb : ∀ l ∈ tr.leaves, (lib.controlBlock tr (lib.encode l.2)).isSome) :
    ∃ r, p.requirements lib = .ret r ∧
      ∀ m : Material Key, (∃ w, p.tryComplete lib m = .ret (.complete w)) ↔ Supplies m r := by
  cases hs : p.spend with
  | keySpend =>
    have h0 := C52_try_complete_key lib cd tr a p h hs {}
    simp only at h0
    obtain ⟨k, hk, e⟩ := h0
    refine ⟨_, by unfold Plan.requirements; rw [e], ?_⟩
    intro m
    have hm := C52_try_complete_key lib cd tr a p h hs m
    cases hsig : m.schnorrSigs tr.internalKey with
    | some sig =>
      rw [hsig] at hm
      simp only at hm
      simp [hm, Supplies, hk, hsig]
    | none =>
      rw [hsig] at hm
      obtain ⟨k', _, e'⟩ := hm
      simp [e', Supplies, hk, hsig]
  | leafSpend s =>
    rcases C52_try_complete_leaf lib cd tr a p h s hs hcb {} with ⟨w, e, hall⟩ | ⟨r, e, _, hl⟩
    · refine ⟨_, by unfold Plan.requirements; rw [e], ?_⟩
      intro m
      rcases C52_try_complete_leaf lib cd tr a p h s hs hcb m with ⟨w', e', _⟩ | ⟨r, _, ⟨i, hi, hu⟩, _⟩
      · simp [e', Supplies]
      · have := unsatisfied_of_empty hu
        rw [hall i hi] at this
        cases this
    · refine ⟨r, by unfold Plan.requirements; rw [e], ?_⟩
      intro m
      have hk := hl.keys
      rcases C52_try_complete_leaf lib cd tr a p h s hs hcb m with ⟨w', e', hall⟩ | ⟨r', e', ⟨i, hi, hu⟩, _⟩
      · refine iff_of_true ⟨w', e'⟩ ⟨?_, ?_, ?_, ?_, ?_⟩
        · rw [hk]
          intro k hk
          obtain ⟨i, hi, hik⟩ := List.mem_filterMap.1 hk
          have := hall i hi
          cases i <;> simp at hik
          subst hik
          simpa [TemplateItem.unsatisfied, Option.isSome_iff_ne_none] using this
        · intro x hx
          have := hall _ ((hl.sha256 x).1 hx).1
          simpa [TemplateItem.unsatisfied, Option.isSome_iff_ne_none] using this
        · intro x hx
          have := hall _ ((hl.hash160 x).1 hx).1
          simpa [TemplateItem.unsatisfied, Option.isSome_iff_ne_none] using this
        · intro x hx
          have := hall _ ((hl.hash256 x).1 hx).1
          simpa [TemplateItem.unsatisfied, Option.isSome_iff_ne_none] using this
        · intro x hx
          have := hall _ ((hl.ripemd160 x).1 hx).1
          simpa [TemplateItem.unsatisfied, Option.isSome_iff_ne_none] using this
      · refine iff_of_false (by rw [e']; rintro ⟨w, hw⟩; cases hw) ?_
        rintro ⟨g1, g2, g3, g4, g5⟩
        rw [hk] at g1
        cases i with
        | sign k =>
          have : (m.schnorrSigs k.descriptorKey).isSome := g1 k (List.mem_filterMap.2 ⟨.sign k, hi, by simp⟩)
          simp [TemplateItem.unsatisfied] at hu
          simp [hu] at this
        | pk k => simp [TemplateItem.unsatisfied] at hu
        | one => simp [TemplateItem.unsatisfied] at hu
        | zero => simp [TemplateItem.unsatisfied] at hu
        | sha256 x =>
          have := g2 x ((hl.sha256 x).2 ⟨hi, rfl⟩)
          simp [TemplateItem.unsatisfied] at hu
          simp [hu] at this
        | hash256 x =>
          have := g4 x ((hl.hash256 x).2 ⟨hi, rfl⟩)
          simp [TemplateItem.unsatisfied] at hu
          simp [hu] at this
        | ripemd160 x =>
          have := g5 x ((hl.ripemd160 x).2 ⟨hi, rfl⟩)
          simp [TemplateItem.unsatisfied] at hu
          simp [hu] at this
        | hash160 x =>
          have := g3 x ((hl.hash160 x).2 ⟨hi, rfl⟩)
          simp [TemplateItem.unsatisfied] at hu
          simp [hu] at this

/-- **C52**: `requires_hash_preimages` says whether the plan can be completed with signatures alone. -/
theorem C52_requires_preimages (lib : Lib Key) (cd : Ak → Key → Option Path) (tr : Tr Key) (a : Assets Ak)
    (p : Plan Key Ak) (h : planTr lib cd tr a = .ret (some p))
    (hcb : ∀ l ∈ tr.leaves, (lib.controlBlock tr (lib.encode l.2)).isSome) :
    ∃ r, p.requirements lib = .ret r ∧
      (r.requiresPreimages = false ↔ ∃ (sigs : Key → Option SchnorrSig) (w : List Bytes),
        p.tryComplete lib { schnorrSigs := sigs } = .ret (.complete w)) := by
  obtain ⟨r, hr, hm⟩ := C52_requirements_exact lib cd tr a p h hcb
  refine ⟨r, hr, ?_⟩
  have hreq : r.requiresPreimages = false ↔ r.sha256 = [] ∧ r.hash160 = [] ∧ r.hash256 = [] ∧ r.ripemd160 = [] := by
    unfold Requirements.requiresPreimages
    simp only [Bool.not_eq_false', Bool.and_eq_true, List.isEmpty_iff, and_assoc]
  rw [hreq]
  have hnone : ∀ {l : List Bytes}, (∀ h ∈ l, (none : Option Bytes).isSome = true) ↔ l = [] := by
    intro l
    cases l with
    | nil => simp
    | cons x l => exact iff_of_false (fun h => by simpa using h x List.mem_cons_self) (by simp)
  constructor
  · rintro ⟨h1, h2, h3, h4⟩
    refine ⟨fun _ => some ⟨[], 0⟩, (hm _).2 ⟨?_, ?_, ?_, ?_, ?_⟩⟩
    · cases r.signatures <;> simp
    all_goals simp [h1, h2, h3, h4]
  · rintro ⟨sigs, w, hw⟩
    obtain ⟨-, h1, h2, h3, h4⟩ := (hm _).1 ⟨w, hw⟩
    exact ⟨hnone.1 h1, hnone.1 h2, hnone.1 h3, hnone.1 h4⟩

end Verif.Planner
