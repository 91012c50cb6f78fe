import Verif.Props.SyncElectrum
import Verif.Props.Sync

/-!
# Property C64: examples and findings
-/

namespace Verif.Sync
open Verif Spec Props SparseChain ChainGraph

/-! ## the worlds of the esplora examples, seen by an electrum server -/

section
variable {T : Type} [LinearOrder T] [AsTransaction T]

def heightOf : Esplora.Place → TxHeight
  | none => .unconfirmed
  | some (h, _) => .confirmed h

def rawOf : Esplora.Place → Int
  | none => 0
  | some (h, _) => h

def eviewOf (w : Esplora.World T) : View TxHeight T where
  tip := w.tip
  header := w.header
  find x := (w.find x).map fun e => (e.1, heightOf e.2)

def eworldOf (w : Esplora.World T) : Electrum.World where
  tip := w.tip
  header := w.header
  history spk := (w.history spk).map fun e => ((asTx e.1).txid, rawOf e.2)
  tx x := (w.find x).map fun e => asTx e.1

theorem eviewOf_find {w : Esplora.World T} {x : Txid} {e : T × TxHeight} :
    (eviewOf w).find x = some e ↔ ∃ e', w.find x = some e' ∧ (e'.1, heightOf e'.2) = e := Option.map_eq_some_iff

theorem eviewOf_sound {w : Esplora.World T} (hw : w.Sound) (hx : Indexed w) : (eviewOf w).Sound := by
  refine ⟨⟨?_, ?_, ?_⟩, hw.tip_header, hw.headers, hw.small, ?_⟩
  · intro x e he
    obtain ⟨e', h1, rfl⟩ := eviewOf_find.1 he
    exact hw.found x e' h1
  · intro x y a b op ha hb h1 h2 h3
    obtain ⟨a', ha', rfl⟩ := eviewOf_find.1 ha
    obtain ⟨b', hb', rfl⟩ := eviewOf_find.1 hb
    exact hw.no_double_spend x y a' b' op ha' hb' h1 h2 h3
  · intro x e op he h1 h2
    obtain ⟨e', he', rfl⟩ := eviewOf_find.1 he
    obtain ⟨e2, he2⟩ := hx.parents x e' op he' h1 h2
    exact ⟨_, eviewOf_find.2 ⟨e2, he2, rfl⟩⟩
  · intro x y p h he hp
    obtain ⟨⟨y', pl⟩, he', h1⟩ := eviewOf_find.1 he
    cases h1
    cases pl with
    | none => cases hp
    | some q => obtain ⟨a, b⟩ := q; cases hp; exact hw.below x _ _ _ he'

theorem mirrors_of {w : Esplora.World T} (hw : w.Sound) (hx : Indexed w)
    (hout : ∀ x e, w.find x = some e → (asTx e.1).output ≠ [] ∧ x ≠ 0 ∧ x ≠ Electrum.genesisTxid ∧ ∀ p ∈ e.2, 0 < p.1) :
    Mirrors (eworldOf w) (eviewOf w) := by
  refine ⟨rfl, fun _ => rfl, ?_, ?_, ?_, ?_, ?_, ?_, ?_⟩
  · intro x
    show (w.find x).map _ = ((w.find x).map _).map _
    rw [Option.map_map]
    rfl
  · intro spk x raw hxr
    obtain ⟨e, he, h1⟩ := List.mem_map.1 hxr
    cases h1
    have h2 := hw.listed spk e he
    refine ⟨e.1, heightOf e.2, eviewOf_find.2 ⟨e, h2, rfl⟩, ?_⟩
    obtain ⟨-, -, h3, h4⟩ := hout _ _ h2
    obtain ⟨y, pl⟩ := e
    cases pl with
    | none => exact .inr (.inr ⟨h3, by simp [rawOf], rfl⟩)
    | some q =>
      obtain ⟨a, b⟩ := q
      have h5 := h4 _ rfl
      have h6 := hw.below _ _ _ _ h2
      refine .inr (.inl ⟨h3, ?_, ?_, a, rfl, rfl⟩)
      · simpa [rawOf] using h5
      · simpa [rawOf, eviewOf] using h6
  · intro k k' x a b h1 h2
    obtain ⟨e, he, h3⟩ := List.mem_map.1 h1
    obtain ⟨e', he', h4⟩ := List.mem_map.1 h2
    cases h3
    have h5 := hw.listed _ _ he
    have h6 := hw.listed _ _ he'
    have h8 : (asTx e'.1).txid = (asTx e.1).txid := congrArg Prod.fst h4
    rw [h8, h5] at h6
    have h7 := Option.some.inj h6
    rw [h7]
    exact congrArg Prod.snd h4
  · intro x e o he h1
    obtain ⟨e', he', rfl⟩ := eviewOf_find.1 he
    exact ⟨_, List.mem_map.2 ⟨e', hx.pays x e' o he' h1, by rw [hw.found _ _ he']⟩⟩
  · intro x e op e2 o he h1 h2 he2 h3
    obtain ⟨e', he', rfl⟩ := eviewOf_find.1 he
    obtain ⟨e3, he3, rfl⟩ := eviewOf_find.1 he2
    exact ⟨_, List.mem_map.2 ⟨e', hx.spends x e' op e3 o he' h1 h2 he3 h3, by rw [hw.found _ _ he']⟩⟩
  · intro x e he
    obtain ⟨e', he', rfl⟩ := eviewOf_find.1 he
    exact (hout _ _ he').1
  · cases h0 : (eviewOf w).find 0 with
    | none => rfl
    | some e =>
      obtain ⟨e', he', -⟩ := eviewOf_find.1 h0
      exact absurd rfl (hout _ _ he').2.1

theorem kin_eview {w w' : Esplora.World T} (h : Kin (viewOf w) (viewOf w')) : Kin (eviewOf w) (eviewOf w') := by
  refine ⟨h.history, ?_⟩
  intro x y p k hh he hp h1 h2
  obtain ⟨⟨y', pl⟩, he', h3⟩ := eviewOf_find.1 he
  cases h3
  cases pl with
  | none => cases hp
  | some q =>
    obtain ⟨a, b⟩ := q
    have := h.txs x y' (.confirmed a b) k hh (viewOf_find.2 ⟨_, he', rfl⟩) hp h1 h2
    obtain ⟨⟨y2, pl2⟩, he2, h4⟩ := viewOf_find.1 this
    refine eviewOf_find.2 ⟨_, he2, ?_⟩
    cases pl2 with
    | none => cases h4
    | some q2 => obtain ⟨a2, b2⟩ := q2; cases h4; rfl

end

/-- the server of the example, and its answers to `batch_transaction_get` -/
def eserver (w : Esplora.World DemoTx) : Electrum.Server := Electrum.twoWorlds (eworldOf w) (eworldOf w) 0
def eget (w : Esplora.World DemoTx) : Txid → Option DemoTx := fun x => (w.find x).map Prod.fst

/-- no transaction is confirmed in block 0 -/
def Above (l : List (Fin 8 × Esplora.Place)) : Prop := ∀ e ∈ l, ∀ p ∈ e.2, 0 < p.1
instance (l) : Decidable (Above l) := by unfold Above; infer_instance

theorem showsView_of {l : List (Fin 8 × Esplora.Place)} {tip : Nat} {hash : Nat → BlockHash} (h : OkList l tip) (ha : Above l) :
    ShowsView (eserver (worldOf l tip hash)) (eget (worldOf l tip hash)) (eworldOf (worldOf l tip hash)) (eviewOf (worldOf l tip hash)) := by
  have hw := sound_worldOf (hash := hash) h
  have hx := indexed_worldOf (hash := hash) h
  refine ⟨eviewOf_sound hw hx, mirrors_of hw hx ?_, Electrum.shows_twoWorlds _ 0, ?_⟩
  · intro x e he
    obtain ⟨n, rfl, h2, h3⟩ := (worldOf_find h).1 he
    have key : ∀ n : Fin 8, (demoTx n).output ≠ [] ∧ dId n ≠ 0 ∧ dId n ≠ Electrum.genesisTxid := by decide
    refine ⟨?_, (key n).2.1, (key n).2.2, fun p hp => ha _ h3 p hp⟩
    rw [h2]
    exact (key n).1
  · intro x
    show ((_ : Option _).map Prod.fst).map asTx = (_ : Option _).map _
    rw [Option.map_map]
    rfl

/-- `Sync` against a server that shows this world -/
def runESync (w : Esplora.World DemoTx) (t : DemoTracker) (f : Flags) : Option DemoTracker :=
  match electrumSync (eserver w) (eget w) (HashOrder.id _) soId soId (Orders.id _ _) t f 2 1 0 with
  | .ok (t', .ok _) => some t'
  | _ => none

theorem runESync_ok {w : Esplora.World DemoTx} {t t' : DemoTracker} {f : Flags} (h : runESync w t f = some t') :
    ∃ cs, electrumSync (eserver w) (eget w) (HashOrder.id _) soId soId (Orders.id _ _) t f 2 1 0 = .ok (t', .ok cs) := by
  unfold runESync at h
  rcases hq : electrumSync (eserver w) (eget w) (HashOrder.id _) soId soId (Orders.id _ _) t f 2 1 0 with ⟨t1, e | cs⟩ | _ | _ | _ | _
  · rw [hq] at h; cases h
  · rw [hq] at h; cases h; exact ⟨cs, rfl⟩
  all_goals (rw [hq] at h; cases h)

theorem eLife_step {t : DemoTracker} {v : View TxHeight DemoTx} {l : List (Fin 8 × Esplora.Place)} {tip : Nat} {hash : Nat → BlockHash}
    (h : ELife t v) (hok : OkList l tip) (ha : Above l) (hl : Follows t v (eviewOf (worldOf l tip hash)))
    (hlen : ∀ l ∈ syncSpks t plain.resolve, l.length ≤ u64Max) (hrun : (runESync (worldOf l tip hash) t plain).isSome = true) (t0 : DemoTracker) :
    ELife ((runESync (worldOf l tip hash) t plain).getD t0) (eviewOf (worldOf l tip hash)) := by
  obtain ⟨t', ht'⟩ := Option.isSome_iff_exists.1 hrun
  obtain ⟨cs, hcs⟩ := runESync_ok ht'
  rw [ht']
  exact ELife.sync _ _ _ _ (HashOrder.id _) soId soId (Orders.id _ _) plain 2 0 0 t' _ h (showsView_of hok ha) hl (by omega) hlen hcs

/-! ## a life with a reorganisation -/

/-- the new wallet -/
def freshE : DemoTracker := ⟨exFresh.txoutIndex, ChainGraph.empty⟩
/-- ... after the first `Sync` ... -/
def exAe : DemoTracker := (runESync exW0 freshE plain).getD freshE
/-- ... after an address was asked for ... -/
def exBe : DemoTracker := ((exAe.step (.revealNextSpk 0)).map Prod.fst).getD exAe
/-- ... and after the second `Sync` -/
def exCe : DemoTracker := (runESync exW exBe plain).getD exBe

theorem freshE_reachable : freshE.Reachable := by
  have : freshE = exFresh := by unfold freshE exFresh; rfl
  rw [this]; exact exFresh_reachable

theorem eLife_new {v : View TxHeight DemoTx} (hv : v.Sound) : ELife freshE v :=
  .new freshE_reachable (demo_allDerivable _) (demo_noCollision (by decide +kernel)) (by unfold Room; decide +kernel)
    (fun _ => rfl) (fun _ => rfl) hv

theorem eLife_A : ELife exAe (eviewOf exW0) := by
  have hok : OkList [(0, some (2, 5)), (1, some (4, 7))] 4 := by decide
  refine eLife_step (eLife_new (eviewOf_sound (sound_worldOf hok) (indexed_worldOf hok))) hok (by decide)
    ⟨kin_eview (kin_of hok hok 4 (fun _ _ => rfl) (fun a h1 _ h3 => absurd h1 (by omega)) (fun e he _ _ _ => he)), ?_, ?_⟩
    (by decide +kernel) (by decide +kernel) freshE
  · rintro h ⟨b, hb⟩; cases hb
  · intro x p k hp; cases hp

theorem eLife_B : ELife exBe (eviewOf exW0) := by
  have h : (exAe.step (.revealNextSpk 0)).isSome = true := by decide +kernel
  obtain ⟨r, hr⟩ := Option.isSome_iff_exists.1 h
  unfold exBe
  rw [hr]
  exact .owner (.revealNextSpk 0) r eLife_A trivial hr

theorem eLife_C : ELife exCe (eviewOf exW) := by
  refine eLife_step eLife_B exL_ok (by decide) (C64_growing_chain eLife_B (eviewOf_sound (sound_worldOf exL_ok) (indexed_worldOf exL_ok)) ?_ rfl)
    (by decide +kernel) (by decide +kernel) exBe
  exact kin_eview (kin_of (by decide) exL_ok 4 (fun _ _ => rfl) (fun a h1 _ h3 => absurd h1 (by omega)) (by decide))

/-- the wallet meets the reorganised chain: its block 4 has left, so transaction 1, confirmed there, is covered -/
theorem eLife_later : Follows exCe (eviewOf exW) (eviewOf exW2) := by
  have hok : OkList exL2 7 := by decide
  have hcps : exCe.chainGraph.chain.checkpoints.entries = [(4, 104), (6, 106)] := by decide +kernel
  refine ⟨kin_eview (kin_of exL_ok hok 3 ?_ ?_ (by decide)), ?_, ?_⟩
  · intro a ha; unfold exHash2; rw [if_pos ha]; rfl
  · intro a _ _ ha; unfold exHash2 exHash; rw [if_neg (by omega)]; intro h; have h' : (200 + a : Nat) = 100 + a := h; omega
  · rintro h ⟨b, hb⟩
    unfold checkpointAt at hb
    obtain ⟨x, hx, -⟩ := Option.map_eq_some_iff.1 hb
    have := OMap.mem_entries.2 hx
    rw [hcps] at this
    simp at this
    rcases this with ⟨rfl, -⟩ | ⟨rfl, -⟩ <;> decide
  · intro x p k hp hk hne
    have hk3 : 3 < k := by
      by_contra hle
      apply hne
      have h1 : k ≤ 3 := by omega
      show (if k ≤ 7 then some (exHash2 k) else none) = (if k ≤ 6 then some (exHash k) else none)
      rw [if_pos (by omega), if_pos (by omega)]
      unfold exHash2 exHash
      rw [if_pos h1]
    exact ⟨4, ⟨4, 104⟩, hk3, by unfold checkpointAt; decide +kernel, by decide⟩

/-- ... and `Scan` and `Sync` succeed, and `Sync` sets everything right -/
example : (∀ gap, ∃ t' cs, electrumScan (eserver exW2) (eget exW2) (HashOrder.id _) soId (Orders.id _ _) exCe gap 2 1 0 = .ok (t', .ok cs)) ∧
    UtxosKnown exCe soId (eviewOf exW2) ∧
    exCe.chainGraph.chain.txPosition (dId 1) = some (.confirmed 4) ∧
    ∀ t' ∈ runESync exW2 exCe plain, t'.chainGraph.chain.txPosition (dId 1) = some (.confirmed 5) ∧
      t'.chainGraph.chain.txPosition (dId 3) = some (.confirmed 6) ∧
      t'.chainGraph.chain.checkpoints.entries = [(4, 204), (6, 206), (7, 207)] := by
  have hs := showsView_of (hash := exHash2) (l := exL2) (tip := 7) (by decide) (by decide)
  obtain ⟨h1, h2⟩ := C64_life_commands_succeed eLife_C hs eLife_later (HashOrder.id _) soId (Orders.id _ _) 2 0 0 (by omega)
  refine ⟨h1, ?_, by decide +kernel, by decide +kernel⟩
  have hrun : (runESync exW2 exCe plain).isSome = true := by decide +kernel
  obtain ⟨t', ht'⟩ := Option.isSome_iff_exists.1 hrun
  obtain ⟨cs, hcs⟩ := runESync_ok ht'
  exact known_of_sync hs hcs rfl

/-- the hypotheses of the theorems about `Scan` are met: script 1 of keychain 1 is asked for with stop gap 3, and the payment to it
is found -/
example : ∃ t' cs, electrumScan (eserver exW) (eget exW) (HashOrder.id _) soId (Orders.id _ _) exBe 3 2 1 0 = .ok (t', .ok cs) ∧
    ScanAsked exBe (eworldOf exW) 3 1 1 5 ∧ t'.chainGraph.chain.txPosition (dId 3) = some .unconfirmed ∧ 1 < numRevealed t'.txoutIndex 1 := by
  have hs := showsView_of (hash := exHash) exL_ok (by decide)
  have hl := C64_growing_chain eLife_B (v' := eviewOf exW) (eviewOf_sound (sound_worldOf exL_ok) (indexed_worldOf exL_ok))
    (kin_eview (kin_of (by decide) exL_ok 4 (fun _ _ => rfl) (fun a h1 _ h3 => absurd h1 (by omega)) (by decide))) rfl
  obtain ⟨hv, hsy, -⟩ := C64_life_truth eLife_B
  have hready := hsy.moves hv hl.kin hl.below hl.covered
  have ha : ScanAsked exBe (eworldOf exW) 3 1 1 5 := by
    obtain ⟨l, h1, h2, h3⟩ := (C63_scan_request exBe.txoutIndex (demo_allDerivable _) 1).2 ⟨true, 1⟩ (by decide +kernel)
    refine ⟨l, h1, ⟨by rw [h2]; decide, ?_⟩, (h3 1 1 5).2 ⟨rfl, by decide, by decide⟩⟩
    rintro ⟨i, hi, -⟩; omega
  obtain ⟨t', cs, h1, -⟩ := C64_scan_succeeds hs hready (HashOrder.id _) soId (Orders.id _ _) 3 2 0 0 (by omega)
  obtain ⟨⟨y, p, h2, h3, h4, -⟩, h5⟩ := C64_scan_finds hs hready (HashOrder.id _) soId (Orders.id _ _) 3 2 0 0 (by omega) h1 ha
    (x := dId 3) (raw := 0) (List.mem_map.2 ⟨(d 3, none), (worldOf_history exL_ok).2 ⟨3, rfl, by decide, by decide⟩, rfl⟩)
  refine ⟨t', cs, h1, ha, ?_, h5⟩
  rw [h4]
  obtain ⟨e', he', h6⟩ := eviewOf_find.1 h2
  obtain ⟨m, hm1, hm2, hm3⟩ := (worldOf_find exL_ok).1 he'
  have : ∀ e ∈ exL, dId e.1 = dId 3 → heightOf e.2 = .unconfirmed := by decide
  have := this _ hm3 hm1.symm
  cases h6
  rw [this]

/-! ## findings -/

/-- **C64 finding** a transaction that was dropped from the mempool (a payment the sender has not repeated, say) locks `Sync` out: as long
as the server does not know it, `Sync` fails before anything is applied, whatever the batch size, the iteration orders and the number
of rounds; `Scan` against the same server succeeds, but `Sync` fails after it too -/
theorem C64_dropped_tx_blocks_sync : ∃ (t : DemoTracker) (v : View TxHeight DemoTx) (w' : Esplora.World DemoTx), ELife t v ∧
    Follows t v (eviewOf w') ∧ ShowsView (eserver w') (eget w') (eworldOf w') (eviewOf w') ∧ w'.find (dId 3) = none ∧
    (∀ ho so so' o f bs n time x, f.resolve.utxos = true → electrumSync (eserver w') (eget w') ho so so' o t f bs n time ≠ .ok x) ∧
    ∀ ho so o gap n time, ∃ t' cs, electrumScan (eserver w') (eget w') ho so o t gap 2 (n + 1) time = .ok (t', .ok cs) ∧
      ∀ ho so so' o f bs n time x, f.resolve.utxos = true → electrumSync (eserver w') (eget w') ho so so' o t' f bs n time ≠ .ok x := by
  have hok : OkList [(0, some (2, 5)), (1, some (4, 7))] 6 := by decide
  have hs := showsView_of (hash := exHash) hok (by decide)
  have hf : Follows exCe (eviewOf exW) (eviewOf (worldOf [(0, some (2, 5)), (1, some (4, 7))] 6 exHash)) :=
    C64_growing_chain eLife_C (eviewOf_sound (sound_worldOf hok) (indexed_worldOf hok)) (kin_eview (kin_of exL_ok hok 6 (fun _ _ => rfl)
      (fun a h1 _ h3 => absurd h1 (by omega)) (by decide))) rfl
  refine ⟨exCe, eviewOf exW, worldOf [(0, some (2, 5)), (1, some (4, 7))] 6 exHash, eLife_C, hf, hs, rfl, ?_, ?_⟩
  all_goals
    have h2 : (exCe.fullUtxos soId).any (fun e => e.2.outpoint == ⟨dId 3, 0⟩) = true := by decide +kernel
    obtain ⟨e, he, h3⟩ := List.any_eq_true.1 h2
    have h4 : e.2.outpoint = ⟨dId 3, 0⟩ := by simpa using h3
    have hsy := (C64_life_truth eLife_C).2.1
    have hready := hsy.moves (C64_life_truth eLife_C).1 hf.kin hf.below hf.covered
    have hfind : ∀ x e, (eviewOf (worldOf [(0, some (2, 5)), (1, some (4, 7))] 6 exHash)).find x = some e →
        x = dId 0 ∧ e.1 = d 0 ∨ x = dId 1 ∧ e.1 = d 1 := by
      intro x e he
      obtain ⟨e2, he2, h5⟩ := eviewOf_find.1 he
      obtain ⟨m, hm1, hm2, hm3⟩ := (worldOf_find hok).1 he2
      subst hm1
      rw [List.mem_cons, List.mem_singleton] at hm3
      have h6 : e.1 = e2.1 := by rw [← h5]
      rcases hm3 with h7 | h7
      · left; rw [h6, hm2]; exact ⟨congrArg (fun p => dId p.1) h7, congrArg (fun p => d p.1) h7⟩
      · right; rw [h6, hm2]; exact ⟨congrArg (fun p => dId p.1) h7, congrArg (fun p => d p.1) h7⟩
    have hun : (eviewOf (worldOf [(0, some (2, 5)), (1, some (4, 7))] 6 exHash)).find e.2.outpoint.txid = none := by
      rw [h4]; rfl
    have hns : ¬ ∃ y, SpentIn (eviewOf (worldOf [(0, some (2, 5)), (1, some (4, 7))] 6 exHash)).find e.2.outpoint y := by
      rintro ⟨y, e2, h5, h6, -⟩
      rw [h4] at h6
      rcases hfind y e2 h5 with ⟨-, h7⟩ | ⟨-, h7⟩ <;> rw [h7] at h6 <;> revert h6 <;> decide
    have hscan := fun ho so o gap n time => (C64_life_commands_succeed eLife_C hs hf ho so o 2 n time (by omega)).1 gap
  · obtain ⟨t', cs, h5⟩ := hscan ⟨id, fun _ => List.Perm.refl _⟩ soId oId 0 0 0
    exact (C64_scan_does_not_unblock hs hready _ _ soId _ _ _ _ _ (by omega) h5 he hun hns).1
  · intro ho so o gap n time
    obtain ⟨t', cs, h5⟩ := hscan ho so o gap n time
    refine ⟨t', cs, h5, (C64_scan_does_not_unblock hs hready _ _ soId _ _ _ _ _ (by omega) h5 he hun hns).2 ?_⟩
    rintro ⟨z, y, h6, h7, -, -⟩
    obtain ⟨-, e2, h8⟩ := C64_scan_adds_only hs hready ho so o gap 2 n time (by omega) h5 h7 h6
    apply h6
    rcases hfind z e2 h8 with ⟨rfl, -⟩ | ⟨rfl, -⟩ <;> unfold InChain <;> decide +kernel

end Verif.Sync
