import Verif.Props.Plan
import Verif.Lemmas.CoinSelect

/-!
# C52 (where the planner is wrong) and C53 (expected weight)
-/

namespace Verif.Planner
open Verif.Tapscript Spec

variable {Key Ak : Type}

/-! ## C52: defects -/

/-- **C52 fails** for absolute lock times: `max_locktime` is compared with itself, so an `after(n)` leaf gets a plan for every
`n`, however far beyond the maximum the assets name, and in whatever unit. -/
theorem C52_after_ignores_maximum (lib : Lib Key) (cd : Ak → Key → Option Path) (ik : Key) (a : Assets Ak)
    (m : LockTime) (hm : a.maxLocktime = some m) (hk : ∀ ak ∈ a.keys, cd ak ik = none) (n : Nat) :
    ∃ p, planTr lib cd ⟨ik, [(0, .after n)]⟩ a = .ret (some p) ∧ p.requiredLocktime = some (.ofConsensus n) := by
  have hf : findKey cd a.keys ik = none := by
    unfold findKey
    rw [List.findSome?_eq_none_iff]
    intro x hx
    simp [hk x hx]
  refine ⟨⟨[], ⟨ik, [(0, .after n)]⟩, .leafSpend (lib.encode (.after n)), some (.ofConsensus n), none⟩, ?_, rfl⟩
  simp [planTr, hf, leafPlans, planSteps, hm, planAfter_eq, smallest]

/-- **C52 fails** for conjunctions: the arguments of the right side are put on top of those of the left side, though the
left side runs first.  A leaf requiring two signatures, `and_v(v:pk(A), pk(B))`, gets a plan, but its completed witness
does not unlock it (B's signature is checked against A's key), unless each signature is valid for the other key too. -/
theorem C52_conjunction_reversed (lib : Lib Key) (xonly : Key → Bytes) (hx : ∀ k, (xonly k).length = 32)
    (cd : Ak → Key → Option Path) (ik A B : Key) (a : Assets Ak) (hk : ∀ ak ∈ a.keys, cd ak ik = none)
    (hA : ∃ ak ∈ a.keys, (cd ak A).isSome) (hB : ∃ ak ∈ a.keys, (cd ak B).isSome)
    (c : Ctx) (m : Material Key) (sB : SchnorrSig) (gen : Genuine xonly c m)
    (hsB : m.schnorrSigs B = some sB) (hwrong : c.sigOk (xonly A) sB.toVec = false) :
    ∃ p, planTr lib cd ⟨ik, [(0, .andV (.verify (.check (.pkK A))) (.check (.pkK B)))]⟩ a = .ret (some p) ∧
      ∀ cb args, p.tryComplete lib m
          = .ret (.complete (args ++ [lib.encode (.andV (.verify (.check (.pkK A))) (.check (.pkK B))), cb])) →
        ¬ Unlocks c (compile xonly c.hash160 (.andV (.verify (.check (.pkK A))) (.check (.pkK B)))) args := by
  have hf : findKey cd a.keys ik = none := by
    unfold findKey
    rw [List.findSome?_eq_none_iff]
    intro x hx
    simp [hk x hx]
  obtain ⟨kA, hkA⟩ := Option.isSome_iff_exists.1 ((findKey_isSome _ _ _).2 hA)
  obtain ⟨kB, hkB⟩ := Option.isSome_iff_exists.1 ((findKey_isSome _ _ _).2 hB)
  refine ⟨⟨[.sign kA, .sign kB], ⟨ik, [(0, .andV (.verify (.check (.pkK A))) (.check (.pkK B)))]⟩,
    .leafSpend (lib.encode (.andV (.verify (.check (.pkK A))) (.check (.pkK B)))), none, none⟩, ?_, ?_⟩
  · simp [planTr, hf, leafPlans, planSteps, hkA, hkB, TermPlan.combine, TermPlan.combineLocktime,
      TermPlan.combineSequence, smallest]
  · intro cb args hc
    have hdB : kB.descriptorKey = B := (findKey_spec hkB).1
    have hdA : kA.descriptorKey = A := (findKey_spec hkA).1
    unfold Plan.tryComplete at hc
    simp only at hc
    split at hc
    · rename_i hu
      cases hsA : m.schnorrSigs A with
      | none => simp [TemplateItem.unsatisfied, hdA, hsA] at hu
      | some sA =>
        simp only [Plan.witnessOf, TemplateItem.toWitness, hdA, hdB, hsA, hsB, Option.map_some] at hc
        cases hcb : lib.controlBlock ⟨ik, [(0, .andV (.verify (.check (.pkK A))) (.check (.pkK B)))]⟩
            (lib.encode (.andV (.verify (.check (.pkK A))) (.check (.pkK B)))) with
        | none => rw [hcb] at hc; simp at hc
        | some cb' =>
          rw [hcb] at hc
          simp at hc
          have hargs : args = [sA.toVec, sB.toVec] := by
            have := congrArg (fun l => l.take (l.length - 2)) hc
            simpa using this.symm
          subst hargs
          rintro ⟨e, alt, he, _⟩
          have hne : sB.toVec ≠ [] := by
            have := (toVec_len (gen.sig_len _ _ hsB)).1
            intro h; rw [h] at this; simp at this
          have hAne : xonly A ≠ [] := by
            have := hx A
            intro h; rw [h] at this; simp at this
          simp [compile, exec, step, hne, hAne, hx, hwrong] at he
    · simp at hc

/-- **C52 fails** for `pk_h`: the witness carries the 33-byte public key where a tapscript leaf commits to the hash of the
32-byte one, so the completed witness never unlocks the leaf (unless the hashes collide). -/
theorem C52_pkh_never_unlocks (lib : Lib Key) (xonly : Key → Bytes)
    (cd : Ak → Key → Option Path) (ik k : Key) (a : Assets Ak) (hk : ∀ ak ∈ a.keys, cd ak ik = none)
    (hA : ∃ ak ∈ a.keys, (cd ak k).isSome) (c : Ctx) (m : Material Key)
    (hh : c.hash160 (lib.pubkeyBytes k) ≠ c.hash160 (xonly k)) :
    ∃ p, planTr lib cd ⟨ik, [(0, .check (.pkH k))]⟩ a = .ret (some p) ∧
      ∀ cb args, p.tryComplete lib m = .ret (.complete (args ++ [lib.encode (.check (.pkH k)), cb])) →
        ¬ Unlocks c (compile xonly c.hash160 (.check (.pkH k))) args := by
  have hf : findKey cd a.keys ik = none := by
    unfold findKey
    rw [List.findSome?_eq_none_iff]
    intro x hx
    simp [hk x hx]
  obtain ⟨kA, hkA⟩ := Option.isSome_iff_exists.1 ((findKey_isSome _ _ _).2 hA)
  refine ⟨⟨[.sign kA, .pk k], ⟨ik, [(0, .check (.pkH k))]⟩, .leafSpend (lib.encode (.check (.pkH k))), none, none⟩,
    ?_, ?_⟩
  · simp [planTr, hf, leafPlans, planSteps, hkA, smallest]
  · intro cb args hc
    have hdA : kA.descriptorKey = k := (findKey_spec hkA).1
    unfold Plan.tryComplete at hc
    simp only at hc
    split at hc
    · rename_i hu
      cases hsA : m.schnorrSigs k with
      | none => simp [TemplateItem.unsatisfied, hdA, hsA] at hu
      | some sA =>
        simp only [Plan.witnessOf, TemplateItem.toWitness, hdA, hsA, Option.map_some] at hc
        cases hcb : lib.controlBlock ⟨ik, [(0, .check (.pkH k))]⟩ (lib.encode (.check (.pkH k))) with
        | none => rw [hcb] at hc; simp at hc
        | some cb' =>
          rw [hcb] at hc
          simp at hc
          have hargs : args = [sA.toVec, lib.pubkeyBytes k] := by
            have := congrArg (fun l => l.take (l.length - 2)) hc
            simpa using this.symm
          subst hargs
          rintro ⟨e, alt, he, _⟩
          simp [compile, exec, step, hh.symm] at he
    · simp at hc

/-- **C52 fails** on unsupported fragments: with the internal key out of reach, a single `multi_a` leaf anywhere makes
planning panic, whatever other leaves could be spent. -/
theorem C52_panics_on_multi (lib : Lib Key) (cd : Ak → Key → Option Path) (tr : Tr Key) (a : Assets Ak)
    (hk : ∀ ak ∈ a.keys, cd ak tr.internalKey = none) (d k : Nat) (ks : List Key) (hl : (d, .multiA k ks) ∈ tr.leaves) :
    planTr lib cd tr a = .panic := by
  have hf : findKey cd a.keys tr.internalKey = none := by
    unfold findKey
    rw [List.findSome?_eq_none_iff]
    intro x hx
    simp [hk x hx]
  have hp : leafPlans cd a tr.leaves = .panic := by
    cases h : leafPlans cd a tr.leaves with
    | panic => rfl
    | ret ps => exact absurd rfl ((leafPlans_eq h).2 _ hl)
  simp [planTr, hf, hp]

/-! ## C53: expected weight -/

/-- number of `pk_h` keys in the witness -/
def Spec.pkItems (t : List (TemplateItem Key Ak)) : Nat :=
  t.countP fun i => match i with
    | .pk _ => true
    | _ => false

/-- number of signatures in the witness that carry a sighash byte -/
def Spec.longSigs (m : Material Key) (t : List (TemplateItem Key Ak)) : Nat :=
  t.countP fun i => match i with
    | .sign k => match m.schnorrSigs k.descriptorKey with
      | some s => decide (s.hashTy ≠ 0)
      | none => false
    | _ => false

theorem excess_sum (m : Material Key) (t : List (TemplateItem Key Ak)) :
    (t.map (excess m)).sum = pkItems t + longSigs m t := by
  unfold pkItems longSigs
  induction t with
  | nil => rfl
  | cons i is ih =>
    rw [List.map_cons, List.sum_cons, ih, List.countP_cons, List.countP_cons]
    cases i with
    | sign k =>
      cases hs : m.schnorrSigs k.descriptorKey with
      | none => simp [excess, hs]
      | some s =>
        by_cases h0 : s.hashTy = 0
        · simp [excess, hs, h0]
        · simp [excess, hs, h0]; omega
    | pk k => simp [excess]; omega
    | one => simp [excess]
    | zero => simp [excess]
    | sha256 h => simp [excess]
    | hash256 h => simp [excess]
    | ripemd160 h => simp [excess]
    | hash160 h => simp [excess]

/-- sizes that the formats fix: signatures 64 bytes, preimages 32 bytes -/
structure Spec.Sized (m : Material Key) : Prop where
  sig : ∀ k s, m.schnorrSigs k = some s → s.sig.length = 64
  sha256 : ∀ h x, m.sha256 h = some x → x.length = 32
  hash160 : ∀ h x, m.hash160 h = some x → x.length = 32
  hash256 : ∀ h x, m.hash256 h = some x → x.length = 32
  ripemd160 : ∀ h x, m.ripemd160 h = some x → x.length = 32

/-- **C53** (exact): whenever a plan is completed, the weight of the witness is the expected weight plus one unit for each
`pk_h` key and one for each signature with a sighash byte. -/
theorem C53_weight_exact (lib : Lib Key) (hpk : ∀ k, (lib.pubkeyBytes k).length = 33)
    (p : Plan Key Ak) (m : Material Key) (hm : Sized m) (w : List Bytes)
    (hw : p.tryComplete lib m = .ret (.complete w)) :
    ∃ e, p.expectedWeight lib = .ret e ∧
      satisfactionWeight w = e + pkItems p.template + longSigs m p.template := by
  unfold Plan.tryComplete at hw
  simp only at hw
  split at hw
  · cases hwit : Plan.witnessOf lib m p.template with
    | none => rw [hwit] at hw; simp at hw
    | some args =>
      rw [hwit] at hw
      simp only at hw
      have hlen := witnessOf_length lib m _ _ hwit
      have hsz := witness_sizes hpk hm.sig hm.sha256 hm.hash160 hm.hash256 hm.ripemd160 hwit
      rw [excess_sum] at hsz
      cases hsp : p.spend with
      | keySpend =>
        rw [hsp] at hw
        simp at hw
        subst hw
        refine ⟨_, by simp only [Plan.expectedWeight, hsp]; rfl, ?_⟩
        simp only [satisfactionWeight, witnessSize, ← CoinSelect.varintSize_eq, hsz, List.length_map, hlen]
        omega
      | leafSpend s =>
        rw [hsp] at hw
        simp only at hw
        cases hcb : lib.controlBlock p.tr s with
        | none => rw [hcb] at hw; simp at hw
        | some cb =>
          rw [hcb] at hw
          simp at hw
          subst hw
          refine ⟨_, by simp only [Plan.expectedWeight, hsp, hcb, Option.map_some]; rfl, ?_⟩
          simp only [satisfactionWeight, witnessSize, ← CoinSelect.varintSize_eq, hsz, List.length_map, hlen, List.length_append, List.map_append,
            List.sum_append, List.length_cons, List.length_nil, List.map_cons, List.map_nil, List.sum_cons, List.sum_nil]
          omega
  · cases hsp : p.spend with
    | keySpend =>
      rw [hsp] at hw
      simp only at hw
      split at hw <;> simp at hw
    | leafSpend s => rw [hsp] at hw; simp at hw

theorem pkItems_noPkH {cd : Ak → Key → Option Path} {a : Assets Ak} {ms : Ms Key} (hn : NoPkH ms)
    {p : TermPlan Key Ak} (h : planSteps cd a ms = .ret (some p)) : pkItems p.template = 0 := by
  unfold pkItems
  induction ms generalizing p with
  | tru => simp [planSteps] at h; simp [← h]
  | after n => simp [planSteps] at h; simp [(planAfter_inv h).2]
  | older n => simp [planSteps] at h; simp [(planOlder_inv h).2]
  | pkK k =>
    simp [planSteps] at h
    obtain ⟨_, _, e⟩ := h
    simp [← e]
  | pkH k => simp [NoPkH] at hn
  | sha256 k | hash256 k | ripemd160 k | hash160 k =>
    simp [planSteps] at h
    simp [← h.2]
  | alt x ih | swap x ih | check x ih | verify x ih | nonZero x ih | zeroNotEqual x ih =>
    simp only [planSteps] at h
    exact ih hn h
  | dupIf x ih =>
    obtain ⟨q, hq, e⟩ := dupIf_inv h
    subst e
    simp only [TermPlan.push, List.countP_append, ih hn hq]; simp
  | andV x y ihx ihy =>
    rw [andV_eq_andB] at h
    obtain ⟨l, r, h1, h2, h3⟩ := andB_inv h
    rw [(combine_eq h3).2.2, List.countP_append, ihx hn.1 h1, ihy hn.2 h2]
  | andB x y ihx ihy =>
    obtain ⟨l, r, h1, h2, h3⟩ := andB_inv h
    rw [(combine_eq h3).2.2, List.countP_append, ihx hn.1 h1, ihy hn.2 h2]
  | orI x y ihx ihy =>
    rcases orI_inv h with ⟨q, hq, e⟩ | ⟨q, hq, e⟩
    · subst e
      simp only [TermPlan.push, List.countP_append, ihx hn.1 hq]; simp
    · subst e
      simp only [TermPlan.push, List.countP_append, ihy hn.2 hq]; simp
  | _ => simp [planSteps] at h

/-- **C53**: for descriptors without `pk_h` and signatures with the default sighash type, the expected weight is exactly
the weight of the completed witness. -/
theorem C53_weight_default (lib : Lib Key) (hpk : ∀ k, (lib.pubkeyBytes k).length = 33)
    (cd : Ak → Key → Option Path) (tr : Tr Key) (a : Assets Ak) (p : Plan Key Ak)
    (h : planTr lib cd tr a = .ret (some p)) (hn : ∀ l ∈ tr.leaves, NoPkH l.2)
    (m : Material Key) (hm : Sized m) (hdef : ∀ k s, m.schnorrSigs k = some s → s.hashTy = 0)
    (w : List Bytes) (hw : p.tryComplete lib m = .ret (.complete w)) :
    p.expectedWeight lib = .ret (satisfactionWeight w) := by
  obtain ⟨e, he, heq⟩ := C53_weight_exact lib hpk p m hm w hw
  have h1 : pkItems p.template = 0 := by
    rcases planTr_cases h with ⟨pk, _, e⟩ | ⟨hk, b, d, ms, af, tp, e, h1, h2, h3, h4⟩
    · subst e; simp [pkItems]
    · subst h2
      exact pkItems_noPkH (hn (d, ms) (by rw [e]; simp)) h1
  have h2 : longSigs m p.template = 0 := by
    unfold longSigs
    rw [List.countP_eq_zero]
    intro i _
    cases i with
    | sign k =>
      cases hs : m.schnorrSigs k.descriptorKey with
      | none => simp [hs]
      | some s => simp [hs, hdef _ _ hs]
    | _ => simp
  rw [he, heq, h1, h2]; rfl

/-! ## concrete cases -/

section Examples

/-- keys are numbers; an asset key derives itself -/
def exDerive (ak k : Nat) : Option Path := if ak = k then some [] else none
def exXonly (k : Nat) : Bytes := List.replicate 32 k
def exLib : Lib Nat where
  encode ms := match ms with
    | .andV _ _ => List.replicate 60 7
    | .orI _ _ => [1, 2, 3]
    | _ => [9]
  pubkeyBytes k := 2 :: exXonly k
  controlBlock tr s := (tr.leaves.find? fun l => (match l.2 with
    | .andV _ _ => List.replicate 60 7
    | .orI _ _ => [1, 2, 3]
    | _ => [9]) = s).map fun l => List.replicate (33 + 32 * l.1) 0
  merkleRoot _ := some [5]
  leafHash s := [s.length]
/-- a signature is valid for the key it repeats; hashes prepend a digit -/
def exCtx : Ctx where
  version := 2
  lockTime := 900
  sequence := 20
  sigOk key sig := decide (key.head? = sig.head?)
  hash160 x := 160 :: x
  sha256 x := 25 :: x
  hash256 x := 26 :: x
  ripemd160 x := 160 :: x
def exMat : Material Nat where
  schnorrSigs k := if k < 9 then some ⟨List.replicate 64 k, 0⟩ else none
  sha256 h := if h = 25 :: List.replicate 32 4 then some (List.replicate 32 4) else none

/-- `or_i(and_v(v:older(10), pk(1)), and_v(v:sha256(H), after(800)))` -/
def exLeaf : Ms Nat :=
  .orI (.andV (.verify (.older 10)) (.check (.pkK 1)))
    (.andV (.verify (.sha256 (25 :: List.replicate 32 4))) (.after 800))
def exAssets : Assets Nat :=
  { keys := [3, 1], txoAge := some 15, maxLocktime := some (.blocks 850), sha256 := [25 :: List.replicate 32 4] }
def exTree : Tr Nat := ⟨0, [(1, exLeaf), (1, .check (.pkK 3))]⟩

/-- the second leaf has the larger arguments (a signature): the first one wins with its hash branch -/
example : planTr exLib exDerive exTree exAssets
    = .ret (some ⟨[.sha256 (25 :: List.replicate 32 4), .zero], exTree, .leafSpend [1, 2, 3], some (.blocks 800), none⟩) := by
  rfl
example : ∀ l ∈ exTree.leaves, PlainLeaf l.2 := by
  intro l hl
  simp [exTree] at hl
  rcases hl with rfl | rfl
  · exact ⟨⟨_, _, _, rfl⟩, by simp [exLeaf, OneSided, NoArgs], by simp [exLeaf, NoPkH],
      by simp [exLeaf, Olders, CleanSeq, seqMasked]⟩
  · exact ⟨⟨_, _, _, rfl⟩, trivial, trivial, trivial⟩
example : ∀ l ∈ exTree.leaves, PlainTimes exAssets l.2 := by
  intro l hl
  simp [exTree] at hl
  rcases hl with rfl | rfl
  · refine ⟨by simp [exLeaf, Olders, CleanSeq, seqMasked], ?_⟩
    intro m hm
    simp [exAssets] at hm
    subst hm
    simp [exLeaf, Afters, LockTime.ofConsensus, LockTime.sameUnit, LockTime.toConsensus]
  · exact ⟨trivial, fun m _ => trivial⟩
example : Genuine exXonly exCtx exMat := by
  refine ⟨?_, ?_, ?_, ?_, ?_, ?_⟩
  · intro k s h
    simp only [exMat] at h
    split at h
    · have := Option.some.inj h; subst this; rfl
    · cases h
  · intro k s h
    simp only [exMat] at h
    split at h
    · have := Option.some.inj h; subst this; simp [exCtx, exXonly, SchnorrSig.toVec]
    · cases h
  · intro h x hx
    simp only [exMat] at hx
    split at hx
    · rename_i e; have := Option.some.inj hx; subst this; exact ⟨rfl, e.symm⟩
    · cases hx
  all_goals intro h x hx; simp [exMat] at hx
/-- completion, and the witness runs -/
example : (match planTr exLib exDerive exTree exAssets with
    | .ret (some p) => decide (p.tryComplete exLib exMat
        = .ret (.complete [List.replicate 32 4, [], [1, 2, 3], List.replicate 65 0]))
      && decide (p.expectedWeight exLib = .ret (4 + (1 + (1 + 32) + 1 + (1 + 3) + (1 + 65))))
    | _ => false) = true := by decide +kernel
example : (exec exCtx (compile exXonly exCtx.hash160 exLeaf) ([[], List.replicate 32 4], [])).map (fun s => s.1.map truthy)
    = some [true] := by decide +kernel

/-- **C52 fails** further: because the maximum is ignored, `or_i(after(100000), pk(1))` is planned through its time-locked
branch (it needs no signature), although the assets cannot wait that long and the key is at hand. -/
theorem C52_after_shadows_key :
    (∃ p, planTr exLib exDerive ⟨0, [(0, .orI (.after 100000) (.check (.pkK 1)))]⟩
      { keys := [1], maxLocktime := some (.blocks 850) } = .ret (some p) ∧
      p.requiredLocktime = some (.blocks 100000) ∧ p.template = [.one]) ∧
    ¬ Affordable (Key := Nat) exDerive { keys := [1], maxLocktime := some (.blocks 850) } (.after 100000) ∧
    Affordable (Key := Nat) exDerive { keys := [1], maxLocktime := some (.blocks 850) } (.check (.pkK 1)) := by
  refine ⟨⟨_, rfl, rfl, rfl⟩, ?_, ?_⟩
  · simp [Affordable, LockTime.toConsensus]
  · simp [Affordable, exDerive]

/-- **C52 fails** further: relative lock times are compared with the bits that have no meaning.  For
`and_v(v:older(65537), older(5))` the plan asks for the sequence 65537, which means one block: a transaction with that
sequence (which is what the plan asks for) does not satisfy the leaf. -/
theorem C52_older_meaningless_bits :
    ∃ p : Plan Nat Nat, planTr exLib exDerive ⟨0, [(0, .andV (.verify (.older 65537)) (.older 5))]⟩
      { txoAge := some 65540 } = .ret (some p) ∧ p.requiredSequence = some 65537 ∧
      Meets { exCtx with sequence := 65537 } p.minVersion p.requiredLocktime p.requiredSequence ∧
      ¬ Unlocks { exCtx with sequence := 65537 }
        (compile exXonly exCtx.hash160 (.andV (.verify (.older 65537)) (.older 5))) [] := by
  refine ⟨_, rfl, rfl, ⟨?_, ?_, ?_⟩, ?_⟩
  · intro v hv
    have : v = 2 := (Option.some.inj hv).symm
    subst this
    decide
  · intro l hl; cases hl
  · intro s hs
    have : s = 65537 := (Option.some.inj hs).symm
    subst this
    decide
  · rintro ⟨e, alt, he, _⟩
    have : exec { exCtx with sequence := 65537 }
        (compile exXonly exCtx.hash160 (.andV (.verify (.older 65537)) (.older 5))) ([].reverse, []) = none := by
      decide +kernel
    rw [this] at he
    cases he

/-- **C52**: smallest arguments are not least weight.  Of two leaves that the assets can spend, a hash lock with a
60-byte script and a plain key, the hash lock is planned, though spending it weighs more. -/
theorem C52_not_the_lightest_leaf :
    ∃ (tr : Tr Nat) (a : Assets Nat) (p q : Plan Nat Nat) (e e' : Nat),
      planTr exLib exDerive tr a = .ret (some p) ∧ p.spend = .leafSpend (List.replicate 60 7) ∧
      (1, .check (.pkK 3)) ∈ tr.leaves ∧
      q = ⟨[.sign ⟨3, [], 3⟩], tr, .leafSpend (exLib.encode (.check (.pkK 3))), none, none⟩ ∧
      planSteps exDerive a (.check (.pkK 3)) = .ret (some { template := q.template }) ∧
      p.expectedWeight exLib = .ret e ∧ q.expectedWeight exLib = .ret e' ∧ e' < e :=
  ⟨⟨0, [(1, .andV (.verify (.sha256 [8])) (.older 5)), (1, .check (.pkK 3))]⟩,
    { keys := [3], txoAge := some 10, sha256 := [[8]] }, _, _,
    4 + (1 + (1 + 32) + (1 + 60) + (1 + 65)), 4 + (1 + (1 + 64) + (1 + 1) + (1 + 65)),
    rfl, rfl, by simp, rfl, rfl, rfl, rfl, by decide⟩

/-- **C53 fails** without the conditions: the plan for a `pk_h` leaf is completed by a witness heavier than expected. -/
theorem C53_pkh_underestimated :
    ∃ (p : Plan Nat Nat) (w : List Bytes) (e : Nat), planTr exLib exDerive ⟨0, [(0, .check (.pkH 3))]⟩ { keys := [3] } = .ret (some p) ∧
      p.tryComplete exLib exMat = .ret (.complete w) ∧ p.expectedWeight exLib = .ret e ∧ e < satisfactionWeight w :=
  ⟨_, [List.replicate 64 3, 2 :: List.replicate 32 3, [9], List.replicate 33 0],
    4 + (1 + (1 + 64) + (1 + 32) + (1 + 1) + (1 + 33)), rfl, by decide +kernel, by decide +kernel, by decide⟩

/-- **C53 fails** for a key spend signed with an explicit sighash type. -/
theorem C53_sighash_underestimated :
    ∃ (p : Plan Nat Nat) (w : List Bytes) (e : Nat), planTr exLib exDerive ⟨3, []⟩ { keys := [3] } = .ret (some p) ∧
      p.tryComplete exLib { schnorrSigs := fun _ => some ⟨List.replicate 64 3, 1⟩ } = .ret (.complete w) ∧
      p.expectedWeight exLib = .ret e ∧ e < satisfactionWeight w :=
  ⟨_, [List.replicate 64 3 ++ [1]], 4 + (1 + (1 + 64)), rfl, by decide +kernel, by decide +kernel, by decide⟩

/-- the hypotheses of `C52_conjunction_reversed` and `C52_pkh_never_unlocks` are met by the context above -/
example : exMat.schnorrSigs 2 = some ⟨List.replicate 64 2, 0⟩ ∧
    exCtx.sigOk (exXonly 1) (SchnorrSig.toVec ⟨List.replicate 64 2, 0⟩) = false ∧
    exCtx.hash160 (exLib.pubkeyBytes 3) ≠ exCtx.hash160 (exXonly 3) := by decide +kernel
/-- with one branch of the tree above, the requirements are its key -/
example : (match planTr exLib exDerive exTree { keys := [1, 3], txoAge := some 15 } with
    | .ret (some p) => decide (p.requirements exLib
        = .ret { signatures := .tapScript [1] [⟨3, [], 3⟩] })
    | _ => false) = true := by decide +kernel

end Examples

end Verif.Planner
