import Verif.Lemmas.Cli2

/-!
# Lemmas about the reservation of change scripts
-/

set_option linter.unusedSectionVars false

namespace Verif.Cli
open Verif Verif.CoinSelect Verif.Planner Verif.Spec Verif.Props

variable {D Key Ak Sec XPrv Msg T P : Type} [DescriptorOps D] [DecidableEq D] [LinearOrder P] [ChainPosition P] [LawfulChainPosition P] [LinearOrder T]
  [AsTransaction T] [LawfulTx T] [DecidableEq Key]

/-- stored and not unused -/
def Taken (s : KeychainIndex Keychain D) (k : Keychain) (i : Nat) : Prop :=
  i < numRevealed s k ∧ s.inner.spks.get (toLex (k, i)) ≠ none ∧ s.inner.unused.mem (toLex (k, i)) = false

def Keeps (s s' : KeychainIndex Keychain D) : Prop := ∀ k i, Taken s k i → Taken s' k i

theorem Keeps.refl (s : KeychainIndex Keychain D) : Keeps s s := fun _ _ h => h
theorem Keeps.trans {a b c : KeychainIndex Keychain D} (h : Keeps a b) (h' : Keeps b c) : Keeps a c := fun k i x => h' k i (h k i x)

theorem reveal_keeps {s : KeychainIndex Keychain D} {k : Keychain} {n : Nat} {r} (h : s.revealToTarget k n = some r)
    (hi : KeychainIndex.Inv s) (hd : AllDerivable s) : Keeps s r.1 := by
  obtain ⟨d, a, b, hk, hc, hab, hc', -, -, -, -, -, hu, ho, -⟩ := KeychainIndex.reveal_main h hi hd
  intro k' i ⟨h0, h1, h2⟩
  refine ⟨?_, ?_, ?_⟩
  · have := (KeychainIndex.reveal_upd h).numRevealed k'
    omega
  · by_cases hkk : k' = k
    · subst hkk
      obtain ⟨c1, -⟩ := hc
      obtain ⟨c1', -⟩ := hc'
      rw [c1'] 
      rw [c1] at h1
      by_cases hia : i < a
      · rw [if_pos hia] at h1
        rw [if_pos (by omega)]; exact h1
      · rw [if_neg hia] at h1; exact absurd rfl h1
    · rw [ho k' i hkk]; exact h1
  · by_contra hne
    have := (hu k' i).1 (by simpa using hne)
    rcases this with h3 | ⟨rfl, h3, -⟩
    · rw [h2] at h3; cases h3
    · obtain ⟨c1, -⟩ := hc
      rw [c1, if_neg (by omega)] at h1
      exact h1 rfl

theorem revealAll_keeps {l : List (Keychain × Nat)} {s s' : KeychainIndex Keychain D} (h : KeychainIndex.revealAll s l = some s')
    (hi : KeychainIndex.Inv s) (hd : AllDerivable s) : Keeps s s' := by
  induction l generalizing s with
  | nil => cases h; exact .refl _
  | cons e l ih =>
    rw [KeychainIndex.revealAll_cons] at h
    cases h1 : s.revealToTarget e.1 e.2 with
    | none => rw [h1] at h; cases h
    | some r =>
      rw [h1] at h
      have hu := KeychainIndex.reveal_upd h1
      exact (reveal_keeps h1 hi hd).trans (ih h (hu.inv hd hi) (KeychainIndex.AllDerivable_congr hu.kc hd))

theorem scanTxout_keeps {s : KeychainIndex Keychain D} {o : OutPoint} {x : TxOut} {r} (h : s.scanTxout o x = some r)
    (hi : KeychainIndex.Inv s) (hd : AllDerivable s) : Keeps s r.1 := by
  unfold KeychainIndex.scanTxout at h
  simp only [] at h
  cases hg : s.inner.spkIndices.get x.spk with
  | none =>
    rw [SpkIndex.scanTxout_none hg] at h
    cases h
    exact .refl _
  | some ki =>
    have hu := KeychainIndex.innerScan_upd s o x
    rw [SpkIndex.scanTxout_some hg] at h hu
    simp only [Option.map_eq_some_iff] at h
    obtain ⟨r', hr', rfl⟩ := h
    refine Keeps.trans ?_ (reveal_keeps hr' (hu.inv hd hi) (KeychainIndex.AllDerivable_congr hu.kc hd))
    intro k i ⟨h0, h1, h2⟩
    refine ⟨h0, h1, ?_⟩
    show (s.inner.unused.remove ki).mem _ = false
    rw [OSet.mem_remove, h2, Bool.and_false]

theorem scan_keepsTaken {l : List (OutPoint × TxOut)} {s : KeychainIndex Keychain D} {r} (h : s.scan l = some r)
    (hi : KeychainIndex.Inv s) (hd : AllDerivable s) : Keeps s r.1 := by
  induction l generalizing s r with
  | nil => cases h; exact .refl _
  | cons e l ih =>
    obtain ⟨r1, r2, h1, h2, h3⟩ := KeychainIndex.scan_cons h
    have hu := KeychainIndex.scanTxout_upd h1
    rw [h3]
    exact (scanTxout_keeps h1 hi hd).trans (ih h2 (hu.inv hd hi) (KeychainIndex.AllDerivable_congr hu.kc hd))

theorem revealNext_keeps {s : KeychainIndex Keychain D} {k : Keychain} {r} (h : s.revealNextSpk k = some r)
    (hi : KeychainIndex.Inv s) (hd : AllDerivable s) : Keeps s r.1 := by
  obtain ⟨n, r', -, h2, -, h3, -⟩ := KeychainIndex.revealNext_spec h
  rw [h3]
  exact reveal_keeps h2 hi hd

theorem nextUnused_keeps {s : KeychainIndex Keychain D} {k : Keychain} {r} (h : s.nextUnusedSpk k = some r)
    (hi : KeychainIndex.Inv s) (hd : AllDerivable s) : Keeps s r.1 := by
  obtain ⟨l, -, ⟨-, h1⟩ | ⟨l', -, h1, -⟩⟩ := KeychainIndex.nextUnused_spec h
  · exact revealNext_keeps h1 hi hd
  · rw [h1]; exact .refl _

theorem markUsed_keeps (s : KeychainIndex Keychain D) (k : Keychain) (i : Nat) : Keeps s (s.markUsed k i).1 := by
  intro k' i' ⟨h0, h1, h2⟩
  refine ⟨h0, h1, ?_⟩
  show (s.inner.unused.remove (toLex (k, i))).mem _ = false
  rw [OSet.mem_remove, h2, Bool.and_false]

theorem markUsed_taken (s : KeychainIndex Keychain D) (k : Keychain) (i : Nat) (h0 : i < numRevealed s k)
    (h : s.inner.spks.get (toLex (k, i)) ≠ none) : Taken (s.markUsed k i).1 k i := by
  refine ⟨h0, h, ?_⟩
  show (s.inner.unused.remove (toLex (k, i))).mem _ = false
  rw [OSet.mem_remove]
  simp

theorem unmarkUsed_keeps (s : KeychainIndex Keychain D) (k k' : Keychain) (i i' : Nat) (hne : (k', i') ≠ (k, i))
    (h : Taken s k' i') : Taken (s.unmarkUsed k i).1 k' i' := by
  obtain ⟨h0, h1, h2⟩ := h
  unfold KeychainIndex.unmarkUsed SpkIndex.unmarkUsed
  simp only
  split
  · exact ⟨h0, h1, h2⟩
  split
  · exact ⟨h0, h1, h2⟩
  refine ⟨h0, h1, ?_⟩
  show (s.inner.unused.add (toLex (k, i))).mem _ = false
  rw [OSet.mem_add, h2, Bool.or_false, decide_eq_false_iff_not]
  exact hne

theorem applyChangeset_keeps {t t' : Tracker Keychain D P T} {cs} (h : t.applyChangeset cs = some t')
    (hi : KeychainIndex.Inv t.txoutIndex) (hd : AllDerivable t.txoutIndex) : Keeps t.txoutIndex t'.txoutIndex := by
  unfold Tracker.applyChangeset at h
  cases h1 : t.txoutIndex.applyAdditions cs.derivationIndices with
  | none => rw [h1] at h; cases h
  | some i =>
    rw [h1] at h
    simp only [Option.bind_eq_bind, Option.bind_some] at h
    cases h2 : i.scan cs.chainGraph.graph.txouts with
    | none => rw [h2] at h; cases h
    | some r =>
      rw [h2] at h
      cases h
      have h3 := h1
      rw [KeychainIndex.applyAdditions_eq] at h3
      unfold KeychainIndex.applyAdditions at h1
      rw [Option.map_eq_some_iff] at h1
      obtain ⟨r1, h1, rfl⟩ := h1
      have hu := KeychainIndex.revealMulti_upd h1
      exact (revealAll_keeps h3 hi hd).trans (scan_keepsTaken h2 (hu.inv hd hi) (KeychainIndex.AllDerivable_congr hu.kc hd))

theorem applyOk_keeps {ε : Type} {t : Tracker Keychain D P T} {q : Res ε (KeychainChangeSet Keychain P T)} {r}
    (h : t.applyOk q = some r) (hi : KeychainIndex.Inv t.txoutIndex) (hd : AllDerivable t.txoutIndex) :
    Keeps t.txoutIndex r.1.txoutIndex := by
  cases q with
  | panic => cases h
  | err e => cases h; exact .refl _
  | ok cs =>
    unfold Tracker.applyOk at h
    simp only [Option.map_eq_some_iff] at h
    obtain ⟨t1, ht1, rfl⟩ := h
    exact applyChangeset_keeps ht1 hi hd

/-- the next script is not one that is taken, as long as there are scripts left -/
theorem revealNext_fresh {s : KeychainIndex Keychain D} (hr : KeychainIndex.Reachable s) (hd : AllDerivable s) {k : Keychain} {d : D}
    (hk : s.keychains.get k = some d) (hc : numRevealed s k ≤ cap d) {q} (h : s.revealNextSpk k = some q) :
    q.2.1.1 = numRevealed s k := by
  obtain ⟨c1, -⟩ := C34_reveal_next_spk hr hd k q h d hk
  rw [c1]; omega

theorem nextUnused_fresh {s : KeychainIndex Keychain D} (hr : KeychainIndex.Reachable s) (hd : AllDerivable s) {k : Keychain} {d : D}
    (hk : s.keychains.get k = some d) (hc : numRevealed s k ≤ cap d) {q} (h : s.nextUnusedSpk k = some q) :
    ¬ Taken s k q.2.1.1 := by
  rintro ⟨t1, -, t2⟩
  by_cases hex : ∃ i, RevealedUnused s k i
  · obtain ⟨c1, -⟩ := C37_next_unused_lowest hr hd k q h hex
    have := c1.2
    unfold SpkIndex.isUsed at this
    rw [t2] at this
    cases this
  · have := revealNext_fresh hr hd hk hc (C37_next_unused_reveals k q h hex)
    omega

theorem pendingChange_append (k : Keychain) (a b : List Job) : pendingChange k (a ++ b) = pendingChange k a ++ pendingChange k b :=
  List.filterMap_append ..

/-- the change of pending transactions is reserved, each script for one of them -/
def Reserved (w : World D P T) : Prop :=
  ∀ k d, w.tracker.txoutIndex.keychains.get k = some d → numRevealed w.tracker.txoutIndex k ≤ cap d →
    (pendingChange k w.jobs).Nodup ∧ ∀ i ∈ pendingChange k w.jobs, Taken w.tracker.txoutIndex k i

theorem jobs_split {jobs : List Job} {n : Nat} {j : Job} (h : jobs[n]? = some j) :
    ∃ a b, jobs = a ++ j :: b ∧ (∀ j', jobs.set n j' = a ++ j' :: b) ∧ jobs.eraseIdx n = a ++ b := by
  obtain ⟨hn, he⟩ := List.getElem?_eq_some_iff.1 h
  refine ⟨jobs.take n, jobs.drop (n + 1), ?_, fun j' => ?_, ?_⟩
  · rw [← he, List.getElem_cons_drop, List.take_append_drop]
  · rw [List.set_eq_take_append_cons_drop, if_pos hn]
  · rw [List.eraseIdx_eq_take_drop_succ]

theorem reserved_of {w w' : World D P T} (hw : Reserved w) (hkc : w'.tracker.txoutIndex.keychains = w.tracker.txoutIndex.keychains)
    (hk : Keeps w.tracker.txoutIndex w'.tracker.txoutIndex)
    (hn : ∀ k, numRevealed w.tracker.txoutIndex k ≤ numRevealed w'.tracker.txoutIndex k)
    (hj : ∀ k, (pendingChange k w'.jobs).Sublist (pendingChange k w.jobs)) : Reserved w' := by
  intro k d hd hc
  obtain ⟨h1, h2⟩ := hw k d (by rw [← hkc]; exact hd) (le_trans (hn k) hc)
  exact ⟨h1.sublist (hj k), fun i hi => hk k i (h2 i ((hj k).subset hi))⟩

theorem Grew.numRevealed {s s' : KeychainIndex Keychain D} (h : Grew s s') (k : Keychain) :
    Spec.numRevealed s k ≤ Spec.numRevealed s' k := by
  obtain ⟨-, a, hu⟩ := h
  have := hu.numRevealed k
  omega

theorem pending_erase {jobs : List Job} {n : Nat} {j : Job} (h : jobs[n]? = some j) (k : Keychain) :
    (pendingChange k (jobs.eraseIdx n)).Sublist (pendingChange k jobs) :=
  List.Sublist.filterMap _ (List.eraseIdx_sublist ..)

theorem step_reserved {env : Env D Key Ak Sec XPrv Msg T} {base : Tracker Keychain D P T} (hb : BaseOk base) {w w' : World D P T}
    {a : Act P T} (ht : TrackerOk base w.tracker) (hw : Reserved w) (h : step env base w a = some w') : Reserved w' := by
  by_cases hc : Crashes a
  · obtain ⟨h1, -, -⟩ := crash_reload hc h
    intro k d _ _
    rw [h1]
    exact ⟨List.nodup_nil, fun i hi => by cases hi⟩
  have hd := ht.derivable hb
  have hi := KeychainIndex.reachable_inv ht.reach hd
  obtain ⟨ops, log, -, hops, -⟩ := step_ops hc h
  have hg : Grew w.tracker.txoutIndex w'.tracker.txoutIndex := run_grew hops
  have main := fun (hk : Keeps w.tracker.txoutIndex w'.tracker.txoutIndex) =>
    reserved_of hw hg.kc hk hg.numRevealed
  cases a with
  | restart => exact absurd trivial hc
  | crashIn => exact absurd trivial hc
  | address cmd ok =>
    simp only [step] at h
    rcases hr : runAddressCmd w.tracker cmd ok with _ | ⟨t, es, e⟩
    · rw [hr] at h; cases h
    · rw [hr] at h
      cases h
      refine main ?_ (fun k => .refl _)
      rcases address_spec hr with ⟨h1, -⟩ | ⟨q, hq, h1, -⟩
      · simp only at h1; rw [h1]; exact .refl _
      · simp only at h1; rw [h1]
        rcases hq with ⟨-, hq⟩ | ⟨-, hq⟩
        · exact nextUnused_keeps hq hi hd
        · exact revealNext_keeps hq hi hd
  | broadcast n ok =>
    simp only [step] at h
    rcases hj : w.jobs[n]? with _ | ⟨f, _ | s⟩
    · rw [hj] at h; cases h; exact hw
    · rw [hj] at h; cases h
      refine main (.refl _) (fun k => ?_)
      obtain ⟨a, b, h1, h2, -⟩ := jobs_split hj
      show (pendingChange k (w.jobs.set n _)).Sublist _
      rw [h2, h1, pendingChange_append, pendingChange_append]
      exact .refl _
    · rw [hj] at h; cases h; exact hw
  | syncElectrum scan o ok =>
    simp only [step] at h
    rcases hr : syncElectrum w.tracker scan o ok with _ | ⟨t, es⟩
    · rw [hr] at h; cases h
    · rw [hr] at h
      cases h
      refine main ?_ (fun k => .refl _)
      show Keeps _ t.txoutIndex
      unfold syncElectrum at hr
      cases hx : w.tracker.determineChangeset scan o with
      | panic => rw [hx] at hr; cases hr
      | err e => rw [hx] at hr; cases hr; exact .refl _
      | ok cs =>
        rw [hx] at hr
        simp only at hr
        by_cases hs : (store cs ok).2 = true
        · rw [if_pos hs, Option.map_eq_some_iff] at hr
          obtain ⟨t1, h1, h2⟩ := hr
          cases h2
          exact applyChangeset_keeps h1 hi hd
        · rw [if_neg hs] at hr; cases hr; exact .refl _
  | syncEsplora scan o ok =>
    simp only [step] at h
    rcases hr : syncEsplora w.tracker scan o ok with _ | ⟨t, es⟩
    · rw [hr] at h; cases h
    · rw [hr] at h
      cases h
      refine main ?_ (fun k => .refl _)
      show Keeps _ t.txoutIndex
      unfold syncEsplora at hr
      rcases hx : w.tracker.applyUpdate scan o with _ | ⟨t1, e | cs⟩
      · rw [hx] at hr; cases hr
      · rw [hx] at hr; cases hr; exact applyOk_keeps hx hi hd
      · rw [hx] at hr; cases hr; exact applyOk_keeps hx hi hd
  | sendFinish n o ok =>
    simp only [step] at h
    rcases hj : w.jobs[n]? with _ | ⟨f, _ | _ | _⟩
    · rw [hj] at h; cases h; exact hw
    · rw [hj] at h; cases h; exact hw
    · rw [hj] at h
      cases h
      obtain ⟨a, b, h1, -, h3⟩ := jobs_split hj
      cases hf : f.change with
      | none =>
        refine main ?_ (pending_erase hj)
        show Keeps _ (sendFailed w.tracker f).txoutIndex
        unfold sendFailed
        rw [hf]
        exact .refl _
      | some ki =>
        obtain ⟨k0, i0⟩ := ki
        intro k d hkd hcap
        have hgk : (sendFailed w.tracker f).txoutIndex = (w.tracker.txoutIndex.unmarkUsed k0 i0).1 := by
          unfold sendFailed; rw [hf]
        obtain ⟨r1, r2⟩ := hw k d (by rw [← hg.kc]; exact hkd) (le_trans (hg.numRevealed k) hcap)
        refine ⟨r1.sublist (pending_erase hj k), fun i hi' => ?_⟩
        show Taken (sendFailed w.tracker f).txoutIndex k i
        rw [hgk]
        apply unmarkUsed_keeps _ _ _ _ _ _ (r2 i ((pending_erase hj k).subset hi'))
        intro he
        cases he
        change i0 ∈ pendingChange k0 (w.jobs.eraseIdx n) at hi'
        rw [h3, pendingChange_append] at hi'
        rw [h1, pendingChange_append] at r1
        have e : pendingChange k0 (⟨f, some false⟩ :: b) = i0 :: pendingChange k0 b := by
          unfold pendingChange
          rw [List.filterMap_cons_some]
          simp [hf]
        rw [e, List.nodup_middle] at r1
        exact (List.nodup_cons.1 r1).1 hi'
    · rw [hj] at h
      simp only at h
      rcases hr : sendSucceeded env w.tracker f o ok with _ | ⟨t, es, e⟩
      · rw [hr] at h; cases h
      · rw [hr] at h
        cases h
        refine main ?_ (pending_erase hj)
        obtain ⟨q, h1, h2, -⟩ := succeeded_spec hr
        show Keeps _ t.txoutIndex
        simp only at h2
        rw [h2]
        exact applyOk_keeps h1 hi hd
  | sendPrepare luck value payee algo ok =>
    simp only [step] at h
    rcases hr : sendPrepare env luck w.tracker value payee algo ok with _ | ⟨t, es, e | f⟩
    · rw [hr] at h; cases h
    · rw [hr] at h
      cases h
      refine main ?_ (fun k => .refl _)
      obtain ⟨q, hq, ⟨h1, -⟩ | ⟨-, -, -, f, hf, -⟩ | ⟨-, h1, -⟩⟩ := prepare_spec hr
      · simp only at h1; rw [h1]; exact nextUnused_keeps hq hi hd
      · cases hf
      · simp only at h1; rw [h1]; exact nextUnused_keeps hq hi hd
    · rw [hr] at h
      cases h
      obtain ⟨q, hq, ⟨h1, -, ⟨e, he⟩ | ⟨f', hf, hch, -⟩⟩ | ⟨-, h1, -, f', hf, hch, -⟩ | ⟨-, -, -, he⟩⟩ := prepare_spec hr
      · cases he
      · cases hf
        simp only at h1
        refine main ?_ (fun k => ?_)
        · rw [h1]; exact nextUnused_keeps hq hi hd
        · show (pendingChange k (w.jobs ++ [⟨f, none⟩])).Sublist _
          rw [pendingChange_append]
          have e : pendingChange k [⟨f, none⟩] = [] := by
            unfold pendingChange
            simp [hch]
          rw [e, List.append_nil]
      · cases hf
        simp only at h1
        subst h1
        intro k d hkd hcap
        have hkd' : w.tracker.txoutIndex.keychains.get k = some d := by rw [← hg.kc]; exact hkd
        have hcap' := le_trans (hg.numRevealed k) hcap
        obtain ⟨r1, r2⟩ := hw k d hkd' hcap'
        have hke : Keeps w.tracker.txoutIndex (q.1.markUsed (internalKeychain w.tracker) q.2.1.1).1 :=
          (nextUnused_keeps hq hi hd).trans (markUsed_keeps _ _ _)
        show (pendingChange k (w.jobs ++ [⟨f, none⟩])).Nodup ∧ ∀ i ∈ pendingChange k (w.jobs ++ [⟨f, none⟩]), _
        rw [pendingChange_append]
        by_cases hkk : k = internalKeychain w.tracker
        · have e : pendingChange k [⟨f, none⟩] = [q.2.1.1] := by
            unfold pendingChange
            simp [hch, hkk]
          rw [e]
          have hfresh := nextUnused_fresh ht.reach hd hkd' hcap' (hkk ▸ hq)
          refine ⟨?_, ?_⟩
          · rw [List.nodup_append]
            refine ⟨r1, List.nodup_singleton _, fun x hx y hy => ?_⟩
            rw [List.mem_singleton.1 hy]
            rintro rfl
            exact hfresh (r2 _ hx)
          · intro i hi'
            rcases List.mem_append.1 hi' with h2 | h2
            · exact hke k i (r2 i h2)
            · rw [List.mem_singleton.1 h2, hkk]
              obtain ⟨⟨j, k1, k2⟩, k3⟩ := nextUnused_knows ht.reach hd hq
              refine markUsed_taken _ _ _ ?_ ?_
              · unfold Spec.numRevealed
                rw [k1]
                exact Nat.lt_succ_of_le k2
              · intro hnone
                unfold SpkIndex.spkAtIndex at k3
                rw [hnone] at k3
                cases k3
        · have e : pendingChange k [⟨f, none⟩] = [] := by
            unfold pendingChange
            simp [hch, Ne.symm hkk]
          rw [e, List.append_nil]
          exact ⟨r1, fun i hi' => hke k i (r2 i hi')⟩
      · cases he

theorem run_reserved {env : Env D Key Ak Sec XPrv Msg T} {base : Tracker Keychain D P T} (hb : BaseOk base) {w : World D P T}
    (h : Run env base w) : Reserved w := by
  induction h with
  | init => intro k d _ _; exact ⟨List.nodup_nil, fun i hi => by cases hi⟩
  | step a hr hs ih => exact step_reserved hb (run_trackerOk hb hr) ih hs

end Verif.Cli
