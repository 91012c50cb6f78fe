import Verif.Lemmas.Rescan
import Verif.Props.Tracker
import Verif.Props.Accessors

/-!
# Property C81: scanning until nothing new is revealed finds everything that can be found

`KeychainTxOutIndex::scan` records the outputs that pay to scripts stored at that moment, and a recorded output extends the
stored scripts.  So one scan may miss outputs that come before the one that makes their script known.  These theorems say what
repeated scanning gives.  `Watched` (Spec/Rescan) is the closure of the stored scripts under the lookahead, defined without any
order.
-/

namespace Verif.Props
open Verif Verif.Spec Verif.KeychainIndex
variable {K D : Type} [LinearOrder K] [DescriptorOps D] [DecidableEq D]

/-- **C81** whatever is scanned in whatever order: only scripts in the closure come to be stored, only outputs that pay to them are
recorded, and what is revealed is a script that an output pays to -/
theorem C81_only_watched {s s' : KeychainIndex K D} (h : Reachable s) (hd : AllDerivable s) (l : List (OutPoint × TxOut))
    (hs : Scans s l s') :
    (∀ k i, stored s' k i ≠ none → Watched s l k i) ∧
    (∀ o, s'.inner.txout o = s.inner.txout o ∨ ∃ x k d i, (o, x) ∈ l ∧ s.keychains.get k = some d ∧ spkAt d i = some x.spk ∧
      Watched s l k i ∧ s'.inner.txout o = some (toLex (k, i), x)) ∧
    (∀ k, s'.lastRevealedIndex k = s.lastRevealedIndex k ∨
      ∃ j, s'.lastRevealedIndex k = some j ∧ numRevealed s k ≤ j ∧ Watched s l k j ∧ Paid s l k j) := by
  have hb := between_scans (reachable_inv h hd) hd hs
  exact ⟨hb.watched, hb.txouts, hb.revealed⟩

/-- **C81** when a scan of all the outputs reveals nothing (its additions are empty), everything in the closure is found: the stored
scripts are exactly the closure, and every output that pays to one of them is recorded at it, at a revealed index -/
theorem C81_quiet_is_complete {s s' : KeychainIndex K D} (h : Reachable s) (hd : AllDerivable s) (l : List (OutPoint × TxOut))
    (hl : OneOutput l) (hs : Scans s l s') (r) (hr : s'.scan l = some r) (hq : r.2 = OMap.empty) :
    (∀ k i, stored r.1 k i ≠ none ↔ Watched s l k i) ∧
    (∀ o x k d i, (o, x) ∈ l → s.keychains.get k = some d → spkAt d i = some x.spk → Watched s l k i →
      r.1.inner.txout o = some (toLex (k, i), x) ∧ ∃ j, r.1.lastRevealedIndex k = some j ∧ i ≤ j) := by
  have hq' := quiet_complete hd (between_scans (reachable_inv h hd) hd hs) hr hq hl
  refine ⟨hq'.1, fun o x k d i h1 h2 h3 h4 => ?_⟩
  obtain ⟨a, b⟩ := hq'.2 o x k d i h1 h2 h3 h4
  refine ⟨a, ?_⟩
  unfold numRevealed at b
  cases hc : r.1.lastRevealedIndex k with
  | none => rw [hc] at b; simp at b
  | some j => rw [hc] at b; exact ⟨j, rfl, by simpa using Nat.lt_succ_iff.1 b⟩

theorem watched_congr {s : KeychainIndex K D} {l1 l2 : List (OutPoint × TxOut)} (hm : ∀ e, e ∈ l1 → e ∈ l2) {k : K} {i : Nat}
    (h : Watched s l1 k i) : Watched s l2 k i := by
  induction h with
  | stored h => exact .stored h
  | further _ hp hk hi hc ih =>
    obtain ⟨d, h1, e, he, h2⟩ := hp
    exact .further ih ⟨d, h1, e, hm e he, h2⟩ hk hi hc

/-- **C81** so the order does not matter in the end: two users who scan the same outputs in any order and any pieces, each until a
scan of all of them reveals nothing, have the same stored scripts, recorded outputs and revealed indices -/
theorem C81_confluent {s s1 s2 : KeychainIndex K D} (h : Reachable s) (hd : AllDerivable s) (l1 l2 : List (OutPoint × TxOut))
    (hm : ∀ e, e ∈ l1 ↔ e ∈ l2) (hl : OneOutput l1) (h1 : Scans s l1 s1) (h2 : Scans s l2 s2) (r1 r2)
    (hr1 : s1.scan l1 = some r1) (hr2 : s2.scan l2 = some r2) (hq1 : r1.2 = OMap.empty) (hq2 : r2.2 = OMap.empty) :
    (∀ k i, stored r1.1 k i = stored r2.1 k i) ∧ (∀ o, r1.1.inner.txout o = r2.1.inner.txout o) ∧
    (∀ k, r1.1.lastRevealedIndex k = r2.1.lastRevealedIndex k) := by
  have hi := reachable_inv h hd
  have hl2 : OneOutput l2 := fun o x y hx hy => hl o x y ((hm _).2 hx) ((hm _).2 hy)
  have b1 := between_scans hi hd h1
  have b2 := between_scans hi hd h2
  have c1 := between_scan hd l1 _ _ b1 (fun _ he => he) hr1
  have c2 := between_scan hd l2 _ _ b2 (fun _ he => he) hr2
  have q1 := quiet_complete hd b1 hr1 hq1 hl
  have q2 := quiet_complete hd b2 hr2 hq2 hl2
  have hw : ∀ k i, Watched s l1 k i ↔ Watched s l2 k i :=
    fun k i => ⟨watched_congr (fun e he => (hm e).1 he), watched_congr (fun e he => (hm e).2 he)⟩
  refine ⟨fun k i => ?_, fun o => ?_, fun k => ?_⟩
  · cases hk : s.keychains.get k with
    | none =>
      have e1 := (c1.inv.absent k (by rw [c1.kc]; exact hk)).1 i
      have e2 := (c2.inv.absent k (by rw [c2.kc]; exact hk)).1 i
      exact e1.trans e2.symm
    | some d =>
      by_cases hh : Watched s l1 k i
      · rw [stored_keeps c1.inv (by rw [c1.kc]; exact hk) i ((q1.1 k i).2 hh),
          stored_keeps c2.inv (by rw [c2.kc]; exact hk) i ((q2.1 k i).2 ((hw k i).1 hh))]
      · have e1 : stored r1.1 k i = none := by by_contra hc; exact hh ((q1.1 k i).1 hc)
        have e2 : stored r2.1 k i = none := by by_contra hc; exact hh ((hw k i).2 ((q2.1 k i).1 hc))
        rw [e1, e2]
  · rcases c1.txouts o with e1 | ⟨x, k, d, i, g1, g2, g3, g4, g5⟩
    · rcases c2.txouts o with e2 | ⟨x, k, d, i, g1, g2, g3, g4, g5⟩
      · rw [e1, e2]
      · rw [(q1.2 o x k d i ((hm _).2 g1) g2 g3 ((hw k i).2 g4)).1, g5]
    · rw [g5, (q2.2 o x k d i ((hm _).1 g1) g2 g3 ((hw k i).1 g4)).1]
  · have lt : ∀ {t t' : KeychainIndex K D} {l : List (OutPoint × TxOut)} {q}, (∀ k i, Watched s l k i ↔ Watched s l1 k i) →
        (∀ e, e ∈ l ↔ e ∈ l1) → Between s l t' → t.scan l = some q → Between s l t → q.2 = OMap.empty → OneOutput l →
        ∀ j, numRevealed s k ≤ j → Watched s l1 k j → Paid s l1 k j → j < numRevealed q.1 k := by
      intro t t' l q hw' hm' _ hq hbt hqq hll j _ hwj hp
      obtain ⟨d, hk, e, he, hs⟩ := hp
      exact ((quiet_complete hd hbt hq hqq hll).2 e.1 e.2 k d j ((hm' _).2 he) hk hs ((hw' k j).2 hwj)).2
    have lt1 := lt (fun _ _ => Iff.rfl) (fun _ => Iff.rfl) b1 hr1 b1 hq1 hl
    have lt2 := lt (fun k i => (hw k i).symm) (fun e => (hm e).symm) b2 hr2 b2 hq2 hl2
    have toP : ∀ {j}, Paid s l2 k j → Paid s l1 k j := fun ⟨d, a, e, b, c⟩ => ⟨d, a, e, (hm _).2 b, c⟩
    show r1.1.lastRevealed.get k = r2.1.lastRevealed.get k
    rcases c1.revealed k with e1 | ⟨j1, e1, g1, w1, p1⟩
    · rcases c2.revealed k with e2 | ⟨j2, e2, g2, w2, p2⟩
      · rw [e1, e2]
      · have := lt1 j2 g2 ((hw k j2).2 w2) (toP p2)
        rw [numRevealed_congr e1] at this
        omega
    · have n1 : numRevealed r1.1 k = j1 + 1 := by unfold numRevealed lastRevealedIndex; rw [e1]
      rcases c2.revealed k with e2 | ⟨j2, e2, g2, w2, p2⟩
      · have := lt2 j1 g1 w1 p1
        rw [numRevealed_congr e2] at this
        omega
      · have n2 : numRevealed r2.1 k = j2 + 1 := by unfold numRevealed lastRevealedIndex; rw [e2]
        have a1 := lt1 j2 g2 ((hw k j2).2 w2) (toP p2)
        have a2 := lt2 j1 g1 w1 p1
        rw [e1, e2]
        congr 1
        omega

/-- **C81** repeated scanning gets there: no scan panics, and at most as many scans as there are outputs reveal something -/
theorem C81_rescan_ends {s : KeychainIndex K D} (h : Reachable s) (hd : AllDerivable s) (hnc : NoCollision s)
    (hlr : ∀ k i, s.lastRevealedIndex k = some i → i ≤ bip32MaxIndex) (hla : ∀ k, s.lookaheadOf k ≤ 2 ^ 31)
    (l : List (OutPoint × TxOut)) :
    ∃ n, n ≤ l.length ∧ ∃ s', rescan l n s = some s' ∧ Scans s l s' ∧ ∃ r, s'.scan l = some r ∧ r.2 = OMap.empty := by
  have main : ∀ (m : Nat) (t : KeychainIndex K D), l.length - atRevealed t l ≤ m → Inv t → AllDerivable t → NoCollision t → Roomy t →
      ∃ n, n ≤ m ∧ ∃ s', rescan l n t = some s' ∧ (Scans s l t → Scans s l s') ∧ ∃ r, s'.scan l = some r ∧ r.2 = OMap.empty := by
    intro m
    induction m with
    | zero =>
      intro t hm hi hd hnc hr
      obtain ⟨r, h1, h2⟩ := scan_ok l hi hd hnc hr
      refine ⟨0, le_refl _, t, rfl, id, r, h1, ?_⟩
      by_contra hq
      have := scan_progress h1 hi hd hnc hq
      have hle : atRevealed r.1 l ≤ l.length := List.countP_le_length
      omega
    | succ m ih =>
      intro t hm hi hd hnc hr
      obtain ⟨r, h1, h2⟩ := scan_ok l hi hd hnc hr
      by_cases hq : r.2 = OMap.empty
      · exact ⟨0, by omega, t, rfl, id, r, h1, hq⟩
      · have := scan_progress h1 hi hd hnc hq
        have hu := scan_upd h1
        obtain ⟨n, a1, s', a2, a3, a4⟩ := ih r.1 (by omega) (hu.inv hd hi) (AllDerivable_congr hu.kc hd) (NoCollision_congr hu.kc hnc) h2
        refine ⟨n + 1, by omega, s', ?_, fun hs => a3 (.scan hs (fun _ he => he) h1), a4⟩
        unfold rescan
        rw [h1]; exact a2
  obtain ⟨n, a1, s', a2, a3, a4⟩ := main l.length s (by omega) (reachable_inv h hd) hd hnc ⟨hlr, hla⟩
  exact ⟨n, a1, s', a2, a3 .start, a4⟩

section
variable {P T : Type} [LinearOrder P] [ChainPosition P] [LawfulChainPosition P] [AsTransaction T] [LawfulTx T] [LinearOrder T]

/-- **C81** for a wallet: scan all outputs of its transaction graph into its index until a scan reveals nothing.  Then
`full_txouts` lists every output of a transaction in the chain that pays to a script in the closure; if a keychain was added after
the transactions were seen, this is how their outputs are found. -/
theorem C81_wallet (t : Tracker K D P T) (ht : t.Reachable) (hd : AllDerivable t.txoutIndex) (ho : HashOrder (Txid × TxNode T))
    (s' : KeychainIndex K D) (hs : Scans t.txoutIndex (t.chainGraph.graph.allTxouts ho) s') (r)
    (hr : s'.scan (t.chainGraph.graph.allTxouts ho) = some r) (hq : r.2 = OMap.empty) (so : SpendOrder) (o : OutPoint) (x : TxOut)
    (k : K) (d : D) (i : Nat) (hx : t.chainGraph.graph.getTxout o = some x) (hk : t.txoutIndex.keychains.get k = some d)
    (hp : spkAt d i = some x.spk) (hw : Watched t.txoutIndex (t.chainGraph.graph.allTxouts ho) k i) (f)
    (hf : t.chainGraph.fullTxout so o = some f) :
    ((k, i), f) ∈ ({ t with txoutIndex := r.1 } : Tracker K D P T).fullTxouts so := by
  have hg := C58_all_txouts t.chainGraph.graph ho
  have hl : OneOutput (t.chainGraph.graph.allTxouts ho) := by
    intro o x y h1 h2
    have := (hg.2 o x).1 h1
    rw [(hg.2 o y).1 h2] at this
    exact (Option.some.inj this).symm
  have := ((C81_quiet_is_complete (tracker_parts ht).1 hd _ hl hs r hr hq).2 o x k d i ((hg.2 o x).2 hx) hk hp hw).1
  unfold Tracker.fullTxouts SpkIndex.allTxouts
  refine List.mem_filterMap.2 ⟨(toLex (k, i), o, x), List.mem_map.2 ⟨(o, toLex (k, i), x), OMap.mem_entries.2 this, rfl⟩, ?_⟩
  show (t.chainGraph.fullTxout so o).map _ = _
  rw [hf]; rfl
end

/-! ## a concrete case -/

/-- one keychain with lookahead 2: the scripts 0, 4 are stored -/
def rsIndex : KeychainIndex (Fin 3) DemoDesc :=
  (((empty : KeychainIndex (Fin 3) DemoDesc).runFrom (bigOps 2)).map Prod.fst).getD empty

theorem rsIndex_reachable : Reachable rsIndex := by
  have h : ((empty : KeychainIndex (Fin 3) DemoDesc).runFrom (bigOps 2)).isSome = true := by decide +kernel
  obtain ⟨r, hr⟩ := Option.isSome_iff_exists.1 h
  refine ⟨bigOps 2, r.2, ?_⟩
  unfold rsIndex; rw [hr]; rfl

/-- outputs that pay to the indices 5, 3, 1 -/
def rsOuts : List (OutPoint × TxOut) := [(⟨dId 0, 0⟩, ⟨50, 20⟩), (⟨dId 1, 0⟩, ⟨30, 12⟩), (⟨dId 1, 1⟩, ⟨19, 4⟩)]

/-- **C81** one scan is not enough, and its result depends on the order: in this order one scan finds one of the three outputs, in
the opposite order all of them -/
theorem C81_one_scan_depends_on_order : ∃ (s : KeychainIndex (Fin 3) DemoDesc) (l : List (OutPoint × TxOut)), ∃ r1 r2, Reachable s ∧
    AllDerivable s ∧ NoCollision s ∧ OneOutput l ∧ s.scan l = some r1 ∧ s.scan l.reverse = some r2 ∧
    r1.1.inner.allTxouts.length = 1 ∧ r2.1.inner.allTxouts.length = 3 := by
  have h1 : (rsIndex.scan rsOuts).isSome = true ∧ (rsIndex.scan rsOuts.reverse).isSome = true := by decide +kernel
  have h2 : (∀ r ∈ rsIndex.scan rsOuts, r.1.inner.allTxouts.length = 1) ∧
      (∀ r ∈ rsIndex.scan rsOuts.reverse, r.1.inner.allTxouts.length = 3) := by decide +kernel
  obtain ⟨r1, hr1⟩ := Option.isSome_iff_exists.1 h1.1
  obtain ⟨r2, hr2⟩ := Option.isSome_iff_exists.1 h1.2
  refine ⟨rsIndex, rsOuts, r1, r2, rsIndex_reachable, demo_allDerivable _, demo_noCollision (by decide +kernel), ?_, hr1, hr2,
    h2.1 r1 hr1, h2.2 r2 hr2⟩
  intro o x y hx hy
  simp only [rsOuts, List.mem_cons, List.not_mem_nil, or_false, Prod.mk.injEq] at hx hy
  rcases hx with ⟨rfl, rfl⟩ | ⟨rfl, rfl⟩ | ⟨rfl, rfl⟩ <;> rcases hy with ⟨h, rfl⟩ | ⟨h, rfl⟩ | ⟨h, rfl⟩ <;> first | rfl | exact absurd h (by decide)

/-- the hypotheses of `C81_rescan_ends` hold of it, and the bound is reached: three scans reveal something, the fourth does not -/
example : (∀ k i, rsIndex.lastRevealedIndex k = some i → i ≤ bip32MaxIndex) ∧ (∀ k, rsIndex.lookaheadOf k ≤ 2 ^ 31) ∧
    ((rescan rsOuts 2 rsIndex).bind (fun s => (s.scan rsOuts).map (fun r => r.2.isEmpty))) = some false ∧
    ((rescan rsOuts 3 rsIndex).bind (fun s => (s.scan rsOuts).map (fun r => (r.2.isEmpty, r.1.inner.allTxouts.length)))) = some (true, 3) := by
  refine ⟨?_, by decide +kernel, by decide +kernel, by decide +kernel⟩
  intro k i h
  have : ∀ k, rsIndex.lastRevealedIndex k = none := by decide +kernel
  rw [this k] at h; cases h

/-- index 5 is in the closure of it -/
example : Watched rsIndex rsOuts 0 5 := by
  have hk : rsIndex.keychains.get 0 = some ⟨true, 0⟩ := by decide +kernel
  have hla : rsIndex.lookaheadOf 0 = 2 := by decide +kernel
  have hc : ∀ n, n ≤ 10 → n ≤ cap (⟨true, 0⟩ : DemoDesc) := by
    intro n hn
    show n ≤ bip32MaxIndex
    have := bip32Max_val
    omega
  have w1 : Watched rsIndex rsOuts 0 1 := .stored (by decide +kernel)
  have w3 : Watched rsIndex rsOuts 0 3 := .further w1 ⟨_, hk, (⟨dId 1, 1⟩, ⟨19, 4⟩), by decide +kernel, rfl⟩ hk (by rw [hla]) (hc _ (by omega))
  exact .further w3 ⟨_, hk, (⟨dId 1, 0⟩, ⟨30, 12⟩), by decide +kernel, rfl⟩ hk (by rw [hla]) (hc _ (by omega))

theorem index_run_reachable : ∀ (ops : List (KeychainIndex.Op (Fin 3) DemoDesc)) (i i' : KeychainIndex (Fin 3) DemoDesc) (log),
    Tracker.Reachable (⟨i, ChainGraph.empty⟩ : DemoTracker) → i.runFrom ops = some (i', log) →
    Tracker.Reachable (⟨i', ChainGraph.empty⟩ : DemoTracker) := by
  intro ops
  induction ops with
  | nil => intro i i' log h hr; cases hr; exact h
  | cons op ops ih =>
    intro i i' log h hr
    unfold KeychainIndex.runFrom at hr
    cases hs : i.step op with
    | none => rw [hs] at hr; cases hr
    | some r =>
      rw [hs] at hr
      simp only [Option.bind_eq_bind, Option.bind_some] at hr
      cases hr' : r.1.runFrom ops with
      | none => rw [hr'] at hr; cases hr
      | some q =>
        rw [hr'] at hr
        have : q.1 = i' := by cases hr; rfl
        exact ih r.1 i' q.2 (Tracker.Reachable.index op r h hs) (by rw [hr', ← this])

theorem exFresh1_reachable : exFresh1.Reachable := by
  have h : ((KeychainIndex.empty : KeychainIndex (Fin 3) DemoDesc).runFrom [.addKeychain 1 ⟨true, 1⟩, .setLookahead 1 1]).isSome = true := by
    decide +kernel
  obtain ⟨r, hr⟩ := Option.isSome_iff_exists.1 h
  have e : exFresh1 = ⟨r.1, ChainGraph.empty⟩ := by unfold exFresh1; rw [hr]; rfl
  rw [e]
  exact index_run_reachable _ _ _ r.2 Tracker.Reachable.empty hr

/-- **C81** for a wallet this means: the same two transactions inserted in another order give another balance (each is scanned once,
when it comes in), and scanning the outputs of the graph again repairs it -/
theorem C81_insertion_order_changes_balance : ∃ (t a b : DemoTracker), ∃ la lb, t.Reachable ∧
    t.runFrom [.insertTx (d 4) .unconfirmed oId, .insertTx (d 3) .unconfirmed oId] = some (a, la) ∧
    t.runFrom [.insertTx (d 3) .unconfirmed oId, .insertTx (d 4) .unconfirmed oId] = some (b, lb) ∧
    a.chainGraph = b.chainGraph ∧ (a.fullTxouts soId).length = 2 ∧ (b.fullTxouts soId).length = 1 ∧
    ∃ r, b.txoutIndex.scan (b.chainGraph.graph.allTxouts (HashOrder.id _)) = some r ∧
      (({ b with txoutIndex := r.1 } : DemoTracker).fullTxouts soId).length = 2 := by
  have h1 : (exFresh1.runFrom [.insertTx (d 4) .unconfirmed oId, .insertTx (d 3) .unconfirmed oId]).isSome = true ∧
      (exFresh1.runFrom [.insertTx (d 3) .unconfirmed oId, .insertTx (d 4) .unconfirmed oId]).isSome = true := by decide +kernel
  obtain ⟨a, ha⟩ := Option.isSome_iff_exists.1 h1.1
  obtain ⟨b, hb⟩ := Option.isSome_iff_exists.1 h1.2
  have h2 : ∀ a ∈ exFresh1.runFrom [.insertTx (d 4) .unconfirmed oId, .insertTx (d 3) .unconfirmed oId],
      ∀ b ∈ exFresh1.runFrom [.insertTx (d 3) .unconfirmed oId, .insertTx (d 4) .unconfirmed oId],
      a.1.chainGraph = b.1.chainGraph ∧ (a.1.fullTxouts soId).length = 2 ∧ (b.1.fullTxouts soId).length = 1 ∧
      (b.1.txoutIndex.scan (b.1.chainGraph.graph.allTxouts (HashOrder.id _))).isSome = true ∧
      ∀ r ∈ b.1.txoutIndex.scan (b.1.chainGraph.graph.allTxouts (HashOrder.id _)),
        (({ b.1 with txoutIndex := r.1 } : DemoTracker).fullTxouts soId).length = 2 := by decide +kernel
  obtain ⟨e1, e2, e3, e4, e5⟩ := h2 a ha b hb
  obtain ⟨r, hr⟩ := Option.isSome_iff_exists.1 e4
  exact ⟨exFresh1, a.1, b.1, a.2, b.2, exFresh1_reachable, ha, hb, e1, e2, e3, r, hr, e5 r hr⟩

end Verif.Props
