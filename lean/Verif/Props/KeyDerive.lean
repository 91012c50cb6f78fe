import Verif.Spec.KeyDerive
import Verif.Model.KeyDerive
import Verif.Props.PlanWeight

/-!
# C56, C57: derivation hints and signing
-/

namespace Verif.Planner
open Spec

variable {Pub XPub Sec XPrv Msg Key Ak : Type}

theorem stripPrefix_eq {p l r : Path} : stripPrefix p l = some r ↔ l = p ++ r := by
  induction p generalizing l with
  | nil => simp [stripPrefix]
  | cons x xs ih =>
    cases l with
    | nil => simp [stripPrefix]
    | cons y ys =>
      simp only [stripPrefix, List.cons_append, List.cons.injEq]
      by_cases h : x = y
      · rw [if_pos h, ih]; simp [h]
      · rw [if_neg h]; simp [Ne.symm h]

/-- **C56** (paths): a hint exists exactly when the fingerprints agree and the child's origin path extends the parent's;
the hint is the rest of that path followed by the child's own steps. -/
theorem C56_path_to_child (parent origin : KeySource) (d : Option Path) (hint : Path) :
    pathToChild parent origin d = some hint ↔
      parent.1 = origin.1 ∧ ∃ rest, origin.2 = parent.2 ++ rest ∧ hint = rest ++ d.getD [] := by
  unfold pathToChild
  by_cases h : parent.1 = origin.1
  · rw [if_pos h]
    cases hs : stripPrefix parent.2 origin.2 with
    | none =>
      simp only [reduceCtorEq, false_iff]
      rintro ⟨_, rest, e, _⟩
      rw [stripPrefix_eq.2 e] at hs
      cases hs
    | some r =>
      have e := stripPrefix_eq.1 hs
      simp only [Option.some.injEq, h, true_and]
      constructor
      · intro e'; exact ⟨r, e, e'.symm⟩
      · rintro ⟨rest, e', e''⟩
        rw [e] at e'
        have := List.append_cancel_left e'
        subst this
        exact e''.symm
  · rw [if_neg h]; simp [h]

/-- The secrets behind the public data: a root secret for each master fingerprint, bip32 derivation (deriving in two steps
is deriving along the joined path), the secret behind each single key and the node behind each extended key. -/
structure Spec.Secrets (Pub XPub Sec XPrv : Type) where
  root : Nat → Option XPrv
  derive : XPrv → Path → Option XPrv
  derive_append : ∀ x p q, derive x (p ++ q) = (derive x p).bind (derive · q)
  secOf : XPrv → Sec
  ofPub : Pub → Option Sec
  node : XPub → Option XPrv

/-- the origin information in a key is true -/
def Spec.Secrets.Honest (S : Secrets Pub XPub Sec XPrv) (fp : XPub → Nat) : DPub Pub XPub → Prop
  | .single none _ => True
  | .single (some o) k => S.ofPub k = ((S.root o.1).bind (S.derive · o.2)).map S.secOf
  | .xpub none x _ _ => S.node x = (S.root (fp x)).bind (S.derive · [])
  | .xpub (some o) x _ _ => S.node x = (S.root o.1).bind (S.derive · o.2)

/-- the secret key a (definite) descriptor key stands for -/
def Spec.Secrets.secret (S : Secrets Pub XPub Sec XPrv) : DPub Pub XPub → Option Sec
  | .single _ k => S.ofPub k
  | .xpub _ x d _ => ((S.node x).bind (S.derive · d)).map S.secOf

theorem Spec.Secrets.honest_xpub {S : Secrets Pub XPub Sec XPrv} {fp : XPub → Nat} {o : Option KeySource} {x : XPub} {d : Path}
    {w : Nat} (h : S.Honest fp (.xpub o x d w)) : S.node x = (S.root (rootOf fp o x).1).bind (S.derive · (rootOf fp o x).2) := by
  cases o <;> exact h

/-- **C56** (key sources): following the hint from the key at the asset's source yields the secret of the descriptor
key. -/
theorem C56_source_hint (S : Secrets Pub XPub Sec XPrv) (fp : XPub → Nat) (src : KeySource) (key : DPub Pub XPub)
    (hk : S.Honest fp key) (hint : Path) (h : sourceCanDerive fp src key = some hint) :
    (((S.root src.1).bind (S.derive · src.2)).bind (S.derive · hint)).map S.secOf = S.secret key := by
  cases key with
  | single o k =>
    cases o with
    | none => simp [sourceCanDerive] at h
    | some o =>
      simp only [sourceCanDerive] at h
      obtain ⟨h1, rest, h2, h3⟩ := (C56_path_to_child _ _ _ _).1 h
      simp at h3
      subst h3
      simp only [Secrets.Honest] at hk
      simp only [Secrets.secret, hk, h1, h2]
      cases S.root o.1 with
      | none => rfl
      | some r => simp [S.derive_append]
  | xpub o x d w =>
    simp only [sourceCanDerive] at h
    obtain ⟨h1, rest, h2, h3⟩ := (C56_path_to_child _ _ _ _).1 h
    simp only [Option.getD_some] at h3
    subst h3
    have hk := S.honest_xpub hk
    simp only [Secrets.secret, hk, h1, h2]
    cases S.root (rootOf fp o x).1 with
    | none => rfl
    | some r =>
      simp only [Option.bind_some, S.derive_append]
      cases S.derive r src.2 with
      | none => rfl
      | some y =>
        simp only [Option.bind_some]

/-- **C56** (extended keys as assets): following the hint from the asset's extended key yields the secret of the descriptor
key, if the asset is not that very key. -/
theorem C56_xpub_hint [DecidableEq Pub] [DecidableEq XPub] (S : Secrets Pub XPub Sec XPrv) (fp : XPub → Nat)
    (o : Option KeySource) (x : XPub) (d : Path) (w : Nat) (key : DPub Pub XPub)
    (ha : S.Honest fp (.xpub o x d w)) (hk : S.Honest fp key) (hne : DPub.xpub o x d w ≠ key)
    (hint : Path) (h : dpubCanDerive fp (.xpub o x d w) key = some hint) :
    ((S.node x).bind (S.derive · hint)).map S.secOf = S.secret key := by
  unfold dpubCanDerive at h
  rw [if_neg hne] at h
  rw [S.honest_xpub ha]
  exact C56_source_hint S fp _ key hk hint h

/-- **C56** (single keys as assets): only the key itself can be signed for, with an empty hint. -/
theorem C56_single_hint [DecidableEq Pub] [DecidableEq XPub] (fp : XPub → Nat) (o : Option KeySource) (k : Pub)
    (key : DPub Pub XPub) (hint : Path) :
    dpubCanDerive fp (.single o k) key = some hint ↔ key = .single o k ∧ hint = [] := by
  unfold dpubCanDerive
  by_cases h : (DPub.single o k : DPub Pub XPub) = key
  · rw [if_pos h]; simp [← h, eq_comm]
  · rw [if_neg h]; simp [Ne.symm h]

/-- **C56 fails** when the asset is the descriptor key itself, given as an extended key with steps of its own: the hint is
empty, so the key signed with is the extended key's own, not the one the steps lead to. -/
theorem C56_same_key_hint_wrong [DecidableEq Pub] [DecidableEq XPub] (S : Secrets Pub XPub Sec XPrv) (fp : XPub → Nat)
    (o : Option KeySource) (x : XPub) (d : Path) (w : Nat) (xs xc : XPrv) (hx : S.node x = some xs)
    (hd : S.derive xs d = some xc) (hnil : S.derive xs [] = some xs) (hne : S.secOf xs ≠ S.secOf xc) :
    ∃ hint, dpubCanDerive fp (.xpub o x d w) (.xpub o x d w : DPub Pub XPub) = some hint ∧
      ((S.node x).bind (S.derive · hint)).map S.secOf ≠ S.secret (.xpub o x d w) := by
  refine ⟨[], by simp [dpubCanDerive], ?_⟩
  simp only [Secrets.secret, hx, Option.bind_some, hnil, hd, Option.map_some]
  simpa using hne

/-! ## C57: signing with a key map -/

theorem insertSig_get [DecidableEq Key] (m : Material Key) (k k' : Key) (s : SchnorrSig) :
    (m.insertSig k s).schnorrSigs k' = if k' = k then some s else m.schnorrSigs k' := rfl

theorem signingKey_eq (cr : Crypto Sec XPrv Msg) (d : DSec Sec XPrv) (hint : Path) :
    signingKey cr d hint = secretFor cr d hint := by cases d <;> rfl

/-- what `signKeys` does when no derivation fails -/
theorem signKeys_ok [DecidableEq Key] (cr : Crypto Sec XPrv Msg) (keymap : Ak → Option (DSec Sec XPrv)) (hashTy : Nat)
    (msg : Msg) (ks : List (PlanKey Key Ak))
    (hd : ∀ k ∈ ks, ∀ s, keymap k.assetKey = some s → (secretFor cr s k.derivationHint).isSome)
    (modified : Bool) (m : Material Key) :
    ∃ m', signKeys cr keymap hashTy msg modified m ks
        = (m', .ok (modified || ks.any fun k => (keymap k.assetKey).isSome)) ∧
      m'.sha256 = m.sha256 ∧ m'.hash160 = m.hash160 ∧ m'.hash256 = m.hash256 ∧ m'.ripemd160 = m.ripemd160 ∧
      (∀ q, (m'.schnorrSigs q).isSome ↔ (m.schnorrSigs q).isSome ∨ ∃ k ∈ ks, k.descriptorKey = q ∧ (keymap k.assetKey).isSome) ∧
      (∀ q sig, m'.schnorrSigs q = some sig → m.schnorrSigs q = some sig ∨ ∃ k ∈ ks, ∃ s sec, k.descriptorKey = q ∧
        keymap k.assetKey = some s ∧ secretFor cr s k.derivationHint = some sec ∧ sig = ⟨cr.sign sec msg, hashTy⟩) := by
  induction ks generalizing modified m with
  | nil => exact ⟨m, by simp [signKeys], rfl, rfl, rfl, rfl, by simp, by simp⟩
  | cons k ks ih =>
    have hd' : ∀ k ∈ ks, ∀ s, keymap k.assetKey = some s → (secretFor cr s k.derivationHint).isSome :=
      fun k hk => hd k (List.mem_cons_of_mem _ hk)
    simp only [signKeys]
    cases hk : keymap k.assetKey with
    | none =>
      obtain ⟨m', e, h1, h2, h3, h4, h5, h6⟩ := ih hd' modified m
      refine ⟨m', by simp only [e]; simp [hk], h1, h2, h3, h4, ?_, ?_⟩
      · intro q
        rw [h5]
        simp [hk]
      · intro q sig hs
        rcases h6 q sig hs with h | ⟨k', hk', r⟩
        · exact .inl h
        · exact .inr ⟨k', List.mem_cons_of_mem _ hk', r⟩
    | some s =>
      obtain ⟨sec, hsec⟩ := Option.isSome_iff_exists.1 (hd k List.mem_cons_self s hk)
      obtain ⟨m', e, h1, h2, h3, h4, h5, h6⟩ :=
        ih hd' true (m.insertSig k.descriptorKey ⟨cr.sign sec msg, hashTy⟩)
      simp only [signingKey_eq, hsec]
      refine ⟨m', by simp only [e]; simp [hk], h1, h2, h3, h4, ?_, ?_⟩
      · intro q
        rw [h5, insertSig_get]
        by_cases hq : q = k.descriptorKey
        · simp [hq, hk]
        · simp [hq, hk, Ne.symm hq]
      · intro q sig hs
        rcases h6 q sig hs with h | ⟨k', hk', r⟩
        · rw [insertSig_get] at h
          by_cases hq : q = k.descriptorKey
          · rw [if_pos hq] at h
            exact .inr ⟨k, List.mem_cons_self, s, sec, hq.symm, hk, hsec, (Option.some.inj h).symm⟩
          · rw [if_neg hq] at h
            exact .inl h
        · exact .inr ⟨k', List.mem_cons_of_mem _ hk', r⟩

/-- **C57**: signing a script-path plan with a key map that knows every key the plan requires, and supplying the required
preimages, completes the plan. -/
theorem C57_signing_completes [DecidableEq Key] (lib : Lib Key) (cd : Ak → Key → Option Path) (tr : Tr Key) (a : Assets Ak)
    (p : Plan Key Ak) (h : planTr lib cd tr a = .ret (some p))
    (hcb : ∀ l ∈ tr.leaves, (lib.controlBlock tr (lib.encode l.2)).isSome)
    (cr : Crypto Sec XPrv Msg) (keymap : Ak → Option (DSec Sec XPrv)) (hashTy : Nat)
    (r : Requirements Key Ak) (hr : p.requirements lib = .ret r) (leaf : Bytes) (ks : List (PlanKey Key Ak))
    (hks : r.signatures = .tapScript leaf ks) (msg : Msg) (hmsg : cr.scriptSpendHash leaf = some msg)
    (hkm : ∀ k ∈ ks, ∃ s, keymap k.assetKey = some s ∧ (secretFor cr s k.derivationHint).isSome)
    (m : Material Key) (h1 : ∀ h ∈ r.sha256, (m.sha256 h).isSome) (h2 : ∀ h ∈ r.hash160, (m.hash160 h).isSome)
    (h3 : ∀ h ∈ r.hash256, (m.hash256 h).isSome) (h4 : ∀ h ∈ r.ripemd160, (m.ripemd160 h).isSome) :
    ∃ m' w, signWithKeymap cr keymap hashTy m r.signatures = .ret (m', .ok (!ks.isEmpty)) ∧
      p.tryComplete lib m' = .ret (.complete w) := by
  obtain ⟨r', hr', hiff⟩ := C52_requirements_exact lib cd tr a p h hcb
  rw [hr] at hr'
  cases hr'
  obtain ⟨m', e, e1, e2, e3, e4, e5, _⟩ := signKeys_ok cr keymap hashTy msg ks (fun k hk s hs => by
    obtain ⟨s', h', h''⟩ := hkm k hk
    rw [hs] at h'
    cases h'
    exact h'') false m
  have hany : (ks.any fun k => (keymap k.assetKey).isSome) = !ks.isEmpty := by
    cases ks with
    | nil => rfl
    | cons k ks =>
      obtain ⟨s, hs, _⟩ := hkm k List.mem_cons_self
      simp [hs]
  have hsup : Supplies m' r := by
    refine ⟨?_, ?_, ?_, ?_, ?_⟩
    · rw [hks]
      intro k hk
      rw [e5]
      obtain ⟨s, hs, _⟩ := hkm k hk
      exact .inr ⟨k, hk, rfl, by rw [hs]; rfl⟩
    · rw [e1]; exact h1
    · rw [e2]; exact h2
    · rw [e3]; exact h3
    · rw [e4]; exact h4
  obtain ⟨w, hw⟩ := (hiff m').2 hsup
  refine ⟨m', w, ?_, hw⟩
  rw [hks]
  simp only [signWithKeymap, hmsg, e, Bool.false_or, hany]

/-- **C57**: signing only adds signatures, made with the key found in the map under the asset key of the required key, and
reports whether it added any; keys missing from the map are left out silently. -/
theorem C57_signing_adds_only [DecidableEq Key] (cr : Crypto Sec XPrv Msg) (keymap : Ak → Option (DSec Sec XPrv))
    (hashTy : Nat) (leaf : Bytes) (ks : List (PlanKey Key Ak)) (msg : Msg) (hmsg : cr.scriptSpendHash leaf = some msg)
    (hd : ∀ k ∈ ks, ∀ s, keymap k.assetKey = some s → (secretFor cr s k.derivationHint).isSome) (m : Material Key) :
    ∃ m', signWithKeymap cr keymap hashTy m (.tapScript leaf ks)
        = .ret (m', .ok (ks.any fun k => (keymap k.assetKey).isSome)) ∧
      (∀ q, (m'.schnorrSigs q).isSome ↔
        (m.schnorrSigs q).isSome ∨ ∃ k ∈ ks, k.descriptorKey = q ∧ (keymap k.assetKey).isSome) ∧
      (∀ q sig, m'.schnorrSigs q = some sig → m.schnorrSigs q = some sig ∨ ∃ k ∈ ks, ∃ s sec, k.descriptorKey = q ∧
        keymap k.assetKey = some s ∧ secretFor cr s k.derivationHint = some sec ∧ sig = ⟨cr.sign sec msg, hashTy⟩) := by
  obtain ⟨m', e, _, _, _, _, e5, e6⟩ := signKeys_ok cr keymap hashTy msg ks hd false m
  exact ⟨m', by simp only [signWithKeymap, hmsg, e, Bool.false_or], e5, e6⟩

/-- **C57** (key path): with the secret in the map, one signature is added, made with the secret tweaked by the
descriptor's script tree, and the plan completes with it. -/
theorem C57_key_spend [DecidableEq Key] (lib : Lib Key) (cd : Ak → Key → Option Path) (tr : Tr Key) (a : Assets Ak)
    (p : Plan Key Ak) (h : planTr lib cd tr a = .ret (some p)) (hs : p.spend = .keySpend)
    (cr : Crypto Sec XPrv Msg) (keymap : Ak → Option (DSec Sec XPrv)) (hashTy : Nat)
    (hkm : ∀ ak ∈ a.keys, ∃ s, keymap ak = some s ∧ ∀ hint, (secretFor cr s hint).isSome)
    (msg : Msg) (hmsg : cr.keySpendHash = some msg) (m : Material Key) :
    ∃ r m' sec ak s hint, ak ∈ a.keys ∧ keymap ak = some s ∧ cd ak tr.internalKey = some hint ∧
      secretFor cr s hint = some sec ∧ p.requirements lib = .ret r ∧ signWithKeymap cr keymap hashTy m r.signatures = .ret (m', .ok true) ∧
      p.tryComplete lib m'
        = .ret (.complete [(⟨cr.signTweaked sec (lib.merkleRoot tr) msg, hashTy⟩ : SchnorrSig).toVec]) := by
  rcases planTr_cases h with ⟨pk, hpk, e⟩ | ⟨_, b, d, ms, af, tp, _, _, h2, _⟩
  · obtain ⟨hd, hmem, hcd⟩ := findKey_spec hpk
    subst e
    obtain ⟨s, hs1, hs2⟩ := hkm _ hmem
    obtain ⟨sec, hsec⟩ := Option.isSome_iff_exists.1 (hs2 pk.derivationHint)
    refine ⟨{ signatures := .tapKey pk (lib.merkleRoot tr) },
      m.insertSig pk.descriptorKey ⟨cr.signTweaked sec (lib.merkleRoot tr) msg, hashTy⟩, sec, pk.assetKey, s,
      pk.derivationHint, hmem, hs1, hcd, hsec, ?_, ?_, ?_⟩
    · simp [Plan.requirements, Plan.tryComplete, TemplateItem.unsatisfied]
    · simp only [signWithKeymap, hmsg, hs1, signingKey_eq, hsec]
    · simp [Plan.tryComplete, TemplateItem.unsatisfied, Plan.witnessOf, TemplateItem.toWitness, Material.insertSig, hd]
  · subst h2; simp at hs

/-- **C57 fails** for a plan that needs no signature: its requirements default to the legacy kind, and signing them
panics. -/
theorem C57_keyless_plan_panics [DecidableEq Key] (lib : Lib Key) (cd : Ak → Key → Option Path) (ik : Key) (n : Nat)
    (m : LockTime) (a : Assets Ak) (ha : a.maxLocktime = some m) (hk : ∀ ak ∈ a.keys, cd ak ik = none)
    (hcb : (lib.controlBlock ⟨ik, [(0, .after n)]⟩ (lib.encode (.after n))).isSome)
    (cr : Crypto Sec XPrv Msg) (keymap : Ak → Option (DSec Sec XPrv)) (hashTy : Nat) (mat : Material Key) :
    ∃ p r, planTr lib cd ⟨ik, [(0, .after n)]⟩ a = .ret (some p) ∧ p.requirements lib = .ret r ∧
      signWithKeymap cr keymap hashTy mat r.signatures = .panic := by
  have hf : findKey cd a.keys ik = none := by
    unfold findKey
    rw [List.findSome?_eq_none_iff]
    intro x hx
    simp [hk x hx]
  obtain ⟨cb, hcb⟩ := Option.isSome_iff_exists.1 hcb
  refine ⟨⟨[], ⟨ik, [(0, .after n)]⟩, .leafSpend (lib.encode (.after n)), some (.ofConsensus n), none⟩, {}, ?_, ?_, rfl⟩
  · simp [planTr, hf, leafPlans, planSteps, ha, planAfter_eq, smallest]
  · simp [Plan.requirements, Plan.tryComplete, Plan.witnessOf, hcb]

/-! ## concrete cases -/

section Examples

/-- secrets where an extended key is the list of steps from its root, prefixed by the fingerprint -/
def exSecrets : Secrets Nat Path Path Path where
  root f := some [f]
  derive x p := some (x ++ p)
  derive_append x p q := by simp
  secOf x := x
  ofPub k := some [k]
  node x := some x

/-- an account key `[7/86h/0h]xpub` and an address key below it -/
example : dpubCanDerive (Pub := Nat) (fun x : Path => x.headD 0) (.xpub (some (7, [86, 0])) [7, 86, 0] [] 1)
    (.xpub (some (7, [86, 0])) [7, 86, 0] [0, 5] 0) = some [0, 5] := by decide +kernel
example : exSecrets.Honest (fun x : Path => x.headD 0) (.xpub (some (7, [86, 0])) [7, 86, 0] [0, 5] 0) := rfl
/-- a key deeper than the source; one elsewhere -/
example : sourceCanDerive (Pub := Nat) (fun x : Path => x.headD 0) (7, [86])
      (.xpub (some (7, [86, 0])) [7, 86, 0] [0, 5] 0) = some [0, 0, 5]
    ∧ sourceCanDerive (Pub := Nat) (fun x : Path => x.headD 0) (7, [84])
      (.xpub (some (7, [86, 0])) [7, 86, 0] [0, 5] 0) = none := by decide +kernel
/-- the hypotheses of `C56_same_key_hint_wrong` -/
example : exSecrets.node [7] = some [7] ∧ exSecrets.derive [7] [0, 5] = some [7, 0, 5]
    ∧ exSecrets.derive [7] [] = some [7] ∧ exSecrets.secOf [7] ≠ exSecrets.secOf [7, 0, 5] := by
  refine ⟨rfl, rfl, rfl, by decide⟩

def exCrypto : Crypto Nat Path Unit where
  derivePriv x p := some (x ++ p)
  secOf x := x.sum
  keySpendHash := some ()
  scriptSpendHash _ := some ()
  sign s _ := List.replicate 64 s
  signTweaked s _ _ := List.replicate 64 (s + 1)

/-- the second leaf of `exTree`, signed with the map `k ↦ k` -/
example : (match planTr exLib exDerive exTree { keys := [1, 3], txoAge := some 15 } with
    | .ret (some p) => match p.requirements exLib with
      | .ret r => match signWithKeymap exCrypto (fun k => some (.xprv [k])) 0 {} r.signatures with
        | .ret (m, .ok true) => decide (p.tryComplete exLib m
            = .ret (.complete [List.replicate 64 3, [9], List.replicate 65 0]))
        | _ => false
      | _ => false
    | _ => false) = true := by decide +kernel

end Examples

end Verif.Planner
