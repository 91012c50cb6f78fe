import Mathlib.Data.Nat.Find
import Verif.Lemmas.Esplora9
import Verif.Props.Limits

/-!
# C62: the esplora scan
-/

namespace Verif.Esplora
open Verif Spec Verif.Props
variable {T : Type} [LinearOrder T] [AsTransaction T] [LawfulTx T]

/-! ## examples -/

/-- the chain has blocks up to 6; script 10 has the confirmed transaction 0 and the unconfirmed 1, script 12 has 1 and 3;
3 spends (1,1) -/
def exWorld : World DemoTx where
  tip := ⟨6, 106⟩
  header h := if h ≤ 6 then some (100 + h) else none
  mempool k := if k = 10 then [d 1] else if k = 12 then [d 3, d 1] else []
  confirmed k := if k = 10 then [(d 0, 4, 44)] else []
  find x := if x = dId 0 then some (d 0, some (4, 44)) else if x = dId 1 then some (d 1, none) else
    if x = dId 3 then some (d 3, none) else none
  spender x v := if x = dId 0 ∧ v = 0 then some (dId 1) else if x = dId 1 ∧ v = 1 then some (dId 3) else none

/-- the wallet has blocks 2 (still in the chain) and 5 (stale) -/
def exLocal : OMap Nat BlockHash := OMap.ofList [(2, 102), (5, 999)]
/-- keychain 0 has no used script, keychain 1 has two -/
def exSpks : OMap Nat (List (Nat × Script)) := OMap.ofList [(0, [(0, 20), (1, 21)]), (1, [(0, 10), (1, 22), (2, 12), (3, 23)])]

abbrev oT : Orders ConfirmationTime DemoTx := Orders.id _ _

omit [LinearOrder T] [LawfulTx T] in
theorem shows_serverOf (w : World T) (hw : w.Sound) : (serverOf fun _ => w).Shows w := by
  refine ⟨fun _ _ => rfl, fun _ => rfl, fun _ => rfl, fun _ _ _ _ => rfl, fun _ _ _ _ _ => rfl, fun _ _ => rfl, ?_, ?_, ?_, ?_⟩
  · intro t x e h; simp only [serverOf, h]
  · intro t x h; simp [serverOf] at h
  · intro t x v h; right; exact ⟨none, by simp only [serverOf, h]⟩
  · intro t x v y e h he; simp only [serverOf, h, he]

theorem find_exWorld {x : Txid} {e : DemoTx × Place} (h : exWorld.find x = some e) :
    (x = dId 0 ∧ e = (d 0, some (4, 44))) ∨ (x = dId 1 ∧ e = (d 1, none)) ∨ (x = dId 3 ∧ e = (d 3, none)) := by
  simp only [exWorld] at h
  by_cases e0 : x = dId 0
  · rw [if_pos e0] at h; cases h; exact .inl ⟨e0, rfl⟩
  · rw [if_neg e0] at h
    by_cases e1 : x = dId 1
    · rw [if_pos e1] at h; cases h; exact .inr (.inl ⟨e1, rfl⟩)
    · rw [if_neg e1] at h
      by_cases e3 : x = dId 3
      · rw [if_pos e3] at h; cases h; exact .inr (.inr ⟨e3, rfl⟩)
      · rw [if_neg e3] at h; cases h

theorem sound_exWorld : exWorld.Sound := by
  refine ⟨rfl, ?_, by decide, ?_, ?_, ?_, ?_, ?_, ?_⟩
  · intro h
    unfold exWorld
    by_cases e : h ≤ 6 <;> simp [e]
  · intro spk e he
    unfold World.history World.settled at he
    simp only [exWorld] at he
    by_cases e1 : spk = 10
    · subst e1
      rw [if_pos rfl, if_pos rfl] at he
      simp at he
      rcases he with rfl | rfl <;> decide
    · by_cases e2 : spk = 12
      · subst e2
        simp at he
        rcases he with rfl | rfl <;> decide
      · simp [e1, e2] at he
  · intro x e h
    rcases find_exWorld h with ⟨rfl, rfl⟩ | ⟨rfl, rfl⟩ | ⟨rfl, rfl⟩ <;> decide
  · intro x t h time hf
    rcases find_exWorld hf with ⟨-, h⟩ | ⟨-, h⟩ | ⟨-, h⟩ <;> cases h
    decide
  · intro spk
    simp only [exWorld]
    by_cases e1 : spk = 10 <;> simp [e1]
  · intro x v y h
    simp only [exWorld] at h
    by_cases e1 : x = dId 0 ∧ v = 0
    · rw [if_pos e1] at h; cases h; exact ⟨_, rfl⟩
    · rw [if_neg e1] at h
      by_cases e2 : x = dId 1 ∧ v = 1
      · rw [if_pos e2] at h; cases h; exact ⟨_, rfl⟩
      · rw [if_neg e2] at h; cases h
  · intro x y a b op ha hb h1 h2 hn
    rcases find_exWorld ha with ⟨rfl, rfl⟩ | ⟨rfl, rfl⟩ | ⟨rfl, rfl⟩ <;>
    rcases find_exWorld hb with ⟨rfl, rfl⟩ | ⟨rfl, rfl⟩ | ⟨rfl, rfl⟩ <;>
    first | rfl | (exfalso; clear hn; revert op; decide)

/-- how a status is read -/
theorem C62_status_reading (st : Status) (tip : Nat) (p : ConfirmationTime) :
    mapConfirmationTime st tip = p ↔ IsPositionOf st tip p := map_iff st tip p

example : mapConfirmationTime ⟨true, some 5, some 9⟩ 5 = .confirmed 5 9 ∧ mapConfirmationTime ⟨true, some 6, some 9⟩ 5 = .unconfirmed ∧
    mapConfirmationTime ⟨true, some 5, none⟩ 5 = .unconfirmed := by decide

/-! ## any server -/

/-- **C62** with any server, honest or not and changing at any moment, the scan does not panic (neither `expect` nor
`unreachable!` nor `unwrap` is hit).  The update it returns is a consistent chain graph, with all its transactions in full and
no double spend.  It belongs to one stretch of time: at its start the server named height and hash of its tip, a block of the
update; at its end `t2` the server confirmed the highest block of the update; and every transaction of the update was given by
the server in between and stands at the position given, read relative to that tip. -/
theorem C62_positions_reported (s : Server T) (o : Orders ConfirmationTime T) (m : OMap Nat BlockHash) (par fuel n : Nat)
    (K : Type) [LinearOrder K] (ks : OMap K (List (Nat × Script))) (txids : List Txid) (ops : List OutPoint) (gap t : Nat)
    (hsmall : ∀ t h, s.height t = some h → h < u32Max) (hm : ∀ h x, m.get h = some x → h < u32Max) :
    scan s o m par fuel n K ks txids ops gap t ≠ .panic ∧
    ∀ r, scan s o m par fuel n K ks txids ops gap t = .ok r →
      ChainGraph.Reachable r.update ∧ AllFull r.update.chain r.update.graph ∧ NoDoubleSpend r.update.chain r.update.graph ∧
      HeightsOk r.update.chain ∧ PositionsAgree r.update.chain ∧ ConfirmedBelowTip r.update.chain ∧
      ∃ T2 t2 start tip, t ≤ T2 ∧ T2 + 2 ≤ t2 ∧ s.height T2 = some start.height ∧ s.tipHash (T2 + 1) = some start.hash ∧
        r.update.chain.checkpointAt start.height = some start ∧
        r.update.chain.latestCheckpoint = some tip ∧ s.blockHash t2 tip.height = some tip.hash ∧
        (∀ h b, r.update.chain.checkpointAt h = some b → b ≠ start →
          (∃ x, m.get h = some x) ∧ ∃ t', t ≤ t' ∧ s.blockHash t' h = some b.hash) ∧
        ∀ x p, r.update.chain.txPosition x = some p →
          ∃ t' tx st, T2 + 2 ≤ t' ∧ t' < t2 ∧ Gives s t' tx st ∧ (asTx tx).txid = x ∧ IsPositionOf st start.height p := by
  obtain ⟨h1, h2⟩ := scan_spec s o m par fuel hsmall hm n K ks txids ops gap t
  refine ⟨h1, fun r hr => ?_⟩
  obtain ⟨start, tip, T2, t2, hf, -⟩ := h2 r hr
  have hi := ChainGraph.reachable_inv hf.upd.reach
  refine ⟨hf.upd.reach, hi.full, hi.nods, hf.upd.upd.heights, hf.upd.upd.pos, ?_, T2, t2, start, tip, hf.started, hf.order, hf.height, hf.hash,
    hf.hasStart, hf.latest, hf.final, ?_, ?_⟩
  · intro x p h hx hp
    exact ⟨_, hf.upd.upd.isTip, hf.upd.upd.below x p h hx hp⟩
  · intro h b hb hne
    rcases hf.cps h b hb with h' | ⟨h', h''⟩
    · exact absurd h' hne
    · exact ⟨h'', h'⟩
  · intro x p hx
    obtain ⟨t', tx, st, a1, a2, a3, a4, a5⟩ := hf.pos x p hx
    exact ⟨t', tx, st, a1, a2, a3, a4, (map_iff st start.height p).1 a5.symm⟩

/-- **C62** whatever the server answers and whenever it changes, as long as the height it names is never below a wallet
checkpoint, the wallet never refuses the update for not connecting -/
theorem C62_update_connects (s : Server T) (o : Orders ConfirmationTime T) (m : OMap Nat BlockHash) (par fuel n : Nat)
    (K : Type) [LinearOrder K] (ks : OMap K (List (Nat × Script))) (txids : List Txid) (ops : List OutPoint) (gap t : Nat)
    (hsmall : ∀ t h, s.height t = some h → h < u32Max)
    (htips : ∀ t h h' x, s.height t = some h → m.get h' = some x → h' ≤ h)
    (c : ChainGraph ConfirmationTime T) (hc : Electrum.CheckpointsOf c.chain m) (hok : HeightsOk c.chain)
    (r : KeychainScan K ConfirmationTime T) (hr : scan s o m par fuel n K ks txids ops gap t = .ok r)
    (o' : Orders ConfirmationTime T) (f : Nat) :
    (c.applyUpdate r.update o').2 ≠ .err (.chain (.notConnected f)) := by
  have hm : ∀ h x, m.get h = some x → h < u32Max := fun h x hx => hok.1 h ⟨⟨h, x⟩, by rw [hc, hx]; rfl⟩
  obtain ⟨start, tip, T2, t2, hf, -⟩ := (scan_spec s o m par fuel hsmall hm n K ks txids ops gap t).2 r hr
  have h5 := hf.connects
  have key : (c.chain.applyUpdate r.update.chain o'.chain).2 ≠ .error (.notConnected f) := by
    rw [Ne, C01_not_connected_iff c.chain _ o'.chain hok]
    rintro ⟨⟨-, ⟨b, hb⟩, habove, -⟩, hno⟩
    rw [hc, Option.map_eq_some_iff] at hb
    obtain ⟨x, hx, -⟩ := hb
    rcases h5 htips f x hx with h6 | ⟨a, y, h7, h8, h9⟩
    · exact hno h6
    · have := habove a ⟨⟨a, y⟩, by rw [hc, h8]; rfl, h9⟩
      omega
  intro h
  apply key
  unfold ChainGraph.applyUpdate ChainGraph.determineChangeset at h
  unfold SparseChain.applyUpdate
  cases hd : c.chain.determineChangeset r.update.chain o'.chain with
  | error e =>
    rw [hd] at h
    simp only [ChainGraph.applyOk] at h
    cases h
    rfl
  | ok cs =>
    rw [hd] at h
    simp only at h
    cases hx : c.fixConflicts ⟨cs, c.graph.determineAdditions r.update.graph o'.graph⟩ o'.spend with
    | panic => rw [hx] at h; cases h
    | err e => rw [hx] at h; cases h
    | ok cs' => rw [hx] at h; cases h

/-- **C62** under the same condition the highest block of the update is the tip the server named before it was asked for any transaction
of the update, and the server confirmed it as part of its chain afterwards: height and hash, which are asked for separately, belong
together -/
theorem C62_tip_confirmed (s : Server T) (o : Orders ConfirmationTime T) (m : OMap Nat BlockHash) (par fuel n : Nat)
    (K : Type) [LinearOrder K] (ks : OMap K (List (Nat × Script))) (txids : List Txid) (ops : List OutPoint) (gap t : Nat)
    (hsmall : ∀ t h, s.height t = some h → h < u32Max) (hm : ∀ h x, m.get h = some x → h < u32Max)
    (htips : ∀ t h h' x, s.height t = some h → m.get h' = some x → h' ≤ h)
    (r : KeychainScan K ConfirmationTime T) (hr : scan s o m par fuel n K ks txids ops gap t = .ok r) :
    ∃ T2 t2 tip, t ≤ T2 ∧ T2 + 2 ≤ t2 ∧ s.height T2 = some tip.height ∧ s.tipHash (T2 + 1) = some tip.hash ∧
      r.update.chain.latestCheckpoint = some tip ∧ s.blockHash t2 tip.height = some tip.hash := by
  obtain ⟨start, tip, T2, t2, hf, -⟩ := (scan_spec s o m par fuel hsmall hm n K ks txids ops gap t).2 r hr
  have hle := hf.upd.upd.isTip.2 start.height ⟨_, hf.hasStart⟩
  have htip := (Electrum.latestCheckpoint_eq.1 hf.latest).2
  have he : tip = start := by
    rcases hf.cps tip.height tip htip with h | ⟨-, x, hx⟩
    · exact h
    · have := htips T2 _ _ x hf.height hx
      have e : tip.height = start.height := by omega
      rw [e, hf.hasStart] at htip
      cases htip; rfl
  subst he
  exact ⟨T2, t2, tip, hf.started, hf.order, hf.height, hf.hash, hf.latest, hf.final⟩

/-- **C62** with any server: a reported last active index is the index of a script of that keychain, and the server did give
transactions when asked about this script -/
theorem C62_last_active_real (s : Server T) (o : Orders ConfirmationTime T) (m : OMap Nat BlockHash) (par fuel n : Nat)
    (K : Type) [LinearOrder K] (ks : OMap K (List (Nat × Script))) (txids : List Txid) (ops : List OutPoint) (gap t : Nat)
    (hsmall : ∀ t h, s.height t = some h → h < u32Max) (hm : ∀ h x, m.get h = some x → h < u32Max)
    (r : KeychainScan K ConfirmationTime T) (hr : scan s o m par fuel n K ks txids ops gap t = .ok r) (k : K) (i : Nat)
    (hki : r.lastActiveIndices.get k = some i) :
    ∃ l spk t' j txs, ks.get k = some l ∧ (i, spk) ∈ l ∧ t ≤ t' ∧ s.txs t' j 0 spk none = some txs ∧ txs ≠ [] := by
  obtain ⟨start, tip, T2, t2, -, lo, hi, h1, -, h2⟩ := (scan_spec s o m par fuel hsmall hm n K ks txids ops gap t).2 r hr
  obtain ⟨l, spk, h3, h4, t', j, txs, h5, -, h6, h7⟩ := h2 k i hki
  exact ⟨l, spk, t', j, txs, h3, h4, le_trans h1 h5, h6, h7⟩

/-! ## a server that does not change -/

/-- **C62** a server that does not change: the scan finishes in its first pass, and the update contains exactly the transactions
of the scripts that are asked for (up to the stop gap), of the requested txids, and those that contain or spend the requested
outpoints, each at its position and in full; paging misses no confirmed transaction.  The last active index of a keychain is the
index of the last script asked for that has transactions. -/
theorem C62_scan_complete (s : Server T) (w : World T) (hs : s.Shows w) (hw : w.Sound) (o : Orders ConfirmationTime T)
    (m : OMap Nat BlockHash) (hm : ∀ h x, m.get h = some x → h ≤ w.tip.height) (par fuel n : Nat) (K : Type) [LinearOrder K]
    (ks : OMap K (List (Nat × Script))) (hf : ∀ k l, ks.get k = some l → ∀ e ∈ l, (w.confirmed e.2).length ≤ fuel)
    (txids : List Txid) (ops : List OutPoint) (gap t : Nat) :
    ∃ r, scan s o m par fuel (n + 1) K ks txids ops gap t = .ok r ∧
      (∀ x p y, (r.update.chain.txPosition x = some p ∧ r.update.graph.getTx x = some y) ↔
        (FoundByScript w gap (max par 1) ks x ∨ FoundByTxid w txids x ∨ FoundByOutpoint w ops x) ∧
          ∃ pl, w.find x = some (y, pl) ∧ p = positionOf pl) ∧
      (∀ x, InChain r.update.chain x → ∃ y, r.update.graph.getTx x = some y) ∧
      ∀ k i, r.lastActiveIndices.get k = some i ↔ ∃ l n spk, ks.get k = some l ∧ Reached w gap (max par 1) l n ∧
        l[n]? = some (i, spk) ∧ w.history spk ≠ [] ∧
        ∀ n' e, n < n' → Reached w gap (max par 1) l n' → l[n']? = some e → w.history e.2 = [] := by
  obtain ⟨r, h1, -, -, h2, h3⟩ := scan_static hs hw o m hm par fuel n K ks hf txids ops gap t
  have hi := ChainGraph.reachable_inv h2.upd.reach
  refine ⟨r, h1, fun x p y => ?_, hi.full, fun k i => ?_⟩
  · exact h2.exact x p y
  · rw [h3]
    constructor
    · rintro ⟨l, hl, n, spk, h⟩; exact ⟨l, n, spk, hl, h⟩
    · rintro ⟨l, n, spk, hl, h⟩; exact ⟨l, hl, n, spk, h⟩

/-- the update of such a scan ends at the server's tip, all its blocks are the server's, and the wallet that applies it follows
the server (two chains that share a block share all blocks below: `hlink`) -/
theorem C62_wallet_follows_server (s : Server T) (w : World T) (hs : s.Shows w) (hw : w.Sound) (o : Orders ConfirmationTime T)
    (m : OMap Nat BlockHash) (hm : ∀ h x, m.get h = some x → h ≤ w.tip.height) (par fuel n : Nat) (K : Type) [LinearOrder K]
    (ks : OMap K (List (Nat × Script))) (hf : ∀ k l, ks.get k = some l → ∀ e ∈ l, (w.confirmed e.2).length ≤ fuel)
    (txids : List Txid) (ops : List OutPoint) (gap t : Nat)
    (c : SparseChain ConfirmationTime) (hc : Electrum.CheckpointsOf c m) (hok : HeightsOk c) (hpa : PositionsAgree c)
    (hlim : SparseChain.Limited c) (hz : c.checkpointLimit ≠ some 0)
    (hlink : ∀ a b x y, a ≤ b → m.get a = some x → m.get b = some y → w.header b = some y → w.header a = some x) :
    ∃ r, scan s o m par fuel (n + 1) K ks txids ops gap t = .ok r ∧ r.update.chain.latestCheckpoint = some w.tip ∧
      (∀ h b, r.update.chain.checkpointAt h = some b → w.header h = some b.hash) ∧
      ∀ ho' cs, (c.applyUpdate r.update.chain ho').2 = .ok cs →
        (c.applyUpdate r.update.chain ho').1.latestCheckpoint = some w.tip ∧
        ∀ h b, (c.applyUpdate r.update.chain ho').1.checkpointAt h = some b → w.header h = some b.hash := by
  obtain ⟨r, h1, h2, h3, h4, -⟩ := scan_static hs hw o m hm par fuel n K ks hf txids ops gap t
  refine ⟨r, h1, h2, h3, fun ho' cs hcs => ?_⟩
  obtain ⟨start, tip, T2, t2, hfin, -⟩ := (scan_spec s o m par fuel (fun t h hh => by
    rw [hs.height] at hh; cases hh; exact hw.small) (fun h x hx => lt_of_le_of_lt (hm h x hx) hw.small) (n + 1) K ks txids ops gap t).2 r h1
  have h5 := hfin.connects (fun t h h' x hh hx => by rw [hs.height] at hh; cases hh; exact hm h' x hx)
  have happ : c.applyUpdate r.update.chain ho' = ((c.applyUpdate r.update.chain ho').1, .ok cs) := Prod.ext rfl hcs
  obtain ⟨full, hcp, hsub, htop⟩ := Props.checkpoints_some_limit c r.update.chain _ ho' cs hok hpa hlim hz happ
  have hall : ∀ h b, full.checkpointAt h = some b → w.header h = some b.hash := by
    intro h b hb
    obtain ⟨e1, e2, e3⟩ := hcp h
    by_cases hu : HasCp r.update.chain h
    · rw [e1 hu] at hb; exact h3 h b hb
    · by_cases hi : Invalidated c r.update.chain h
      · rw [e2 hu hi] at hb; cases hb
      · rw [e3 hu hi, hc, Option.map_eq_some_iff] at hb
        obtain ⟨x, hx, rfl⟩ := hb
        rcases h5 h x hx with ⟨b', hb'⟩ | ⟨a, y, hlt, hy, ha⟩
        · exact absurd ⟨b', hb'⟩ hu
        · exact hlink h a x y (le_of_lt hlt) hx hy (h3 a _ ha)
  have htu := (Electrum.latestCheckpoint_eq.1 h2).2
  have htc : (c.applyUpdate r.update.chain ho').1.checkpointAt w.tip.height = some w.tip := by
    rw [htop _ (fun j ⟨b, hb⟩ => (hw.headers j).1 ⟨_, hall j b hb⟩), (hcp w.tip.height).1 ⟨_, htu⟩]; exact htu
  refine ⟨Electrum.latestCheckpoint_eq.2 ⟨⟨⟨_, htc⟩, ?_⟩, htc⟩, fun h b hb => hall h b (hsub h b hb)⟩
  rintro h ⟨b, hb⟩
  exact (hw.headers h).1 ⟨_, hall h b (hsub h b hb)⟩

/-- the hypotheses of the theorems hold of a wallet with a stale block; the scan finds all three transactions -/
example : (∀ h x, exLocal.get h = some x → h ≤ exWorld.tip.height) ∧
    (∀ k l, exSpks.get k = some l → ∀ e ∈ l, (exWorld.confirmed e.2).length ≤ 1) ∧
    (∀ a b x y, a ≤ b → exLocal.get a = some x → exLocal.get b = some y → exWorld.header b = some y →
      exWorld.header a = some x) := by
  have hl : ∀ h x, exLocal.get h = some x → (h, x) = (2, 102) ∨ (h, x) = (5, 999) := by
    intro h x hx
    have := OMap.ofList_mem hx
    simpa using this
  refine ⟨?_, ?_, ?_⟩
  · intro h x hx
    rcases hl h x hx with h | h <;> cases h <;> decide
  · intro k l _ e _
    simp only [exWorld]
    split <;> simp
  · intro a b x y _ ha hb hy
    rcases hl b y hb with h | h <;> cases h
    · rcases hl a x ha with h | h <;> cases h
      · rfl
      · omega
    · exact absurd hy (by decide)

example : (match scan (serverOf fun _ => exWorld) oT exLocal 2 1 1 Nat exSpks [] [] 2 0 with
    | .ok r => decide (r.update.chain.txPosition (dId 0) = some (.confirmed 4 44)) && decide (r.update.chain.txPosition (dId 3) = some .unconfirmed)
      && decide (r.lastActiveIndices.get 1 = some 2) && decide (r.lastActiveIndices.get 0 = none) && decide (r.update.chain.latestCheckpoint = some ⟨6, 106⟩)
    | _ => false) = true := by decide +kernel

/-- a script is asked for if no `gap` consecutive scripts before it are all without transactions -/
theorem reached_of_gap {I : Type} (w : World T) (gap par : Nat) (hpar : 0 < par) (l : List (I × Script)) (n : Nat) (hn : n < l.length)
    (h : ¬ ∃ i, i + gap ≤ n ∧ ∀ j, i ≤ j → j < i + gap → ∃ e, l[j]? = some e ∧ w.history e.2 = []) : Reached w gap par l n := by
  refine ⟨hn, ?_⟩
  rintro ⟨b, h1, h2, h3⟩
  refine h ⟨(b + 1) * par - gap, by omega, fun j h4 h5 => h3 j h4 (by omega)⟩

/-- with one request at a time a script is asked for iff no `gap` consecutive scripts before it are all without transactions, and then
it is asked for with any number -/
theorem reached_single {I : Type} (w : World T) (gap : Nat) (hgap : 0 < gap) (l : List (I × Script)) (n : Nat) :
    (Reached w gap 1 l n ↔ n < l.length ∧
      ¬ ∃ i, i + gap ≤ n ∧ ∀ j, i ≤ j → j < i + gap → ∃ e, l[j]? = some e ∧ w.history e.2 = []) ∧
    (Reached w gap 1 l n → ∀ par, 0 < par → Reached w gap par l n) := by
  have h1 : Reached w gap 1 l n ↔ n < l.length ∧
      ¬ ∃ i, i + gap ≤ n ∧ ∀ j, i ≤ j → j < i + gap → ∃ e, l[j]? = some e ∧ w.history e.2 = [] := by
    constructor
    · rintro ⟨h1, h2⟩
      refine ⟨h1, ?_⟩
      rintro ⟨i, h3, h4⟩
      refine h2 ⟨i + gap - 1, by omega, by omega, fun j h5 h6 => h4 j (by omega) (by omega)⟩
    · rintro ⟨h1, h2⟩
      exact reached_of_gap w gap 1 (by decide) l n h1 h2
  exact ⟨h1, fun h par hpar => reached_of_gap w gap par hpar l n (h1.1 h).1 (h1.1 h).2⟩

section Gap
variable (s : Server T) (w : World T) (hs : s.Shows w) (hw : w.Sound) (o : Orders ConfirmationTime T)
    (m : OMap Nat BlockHash) (hm : ∀ h x, m.get h = some x → h ≤ w.tip.height) (par fuel n : Nat) (K : Type) [LinearOrder K]
    (ks : OMap K (List (Nat × Script))) (hf : ∀ k l, ks.get k = some l → ∀ e ∈ l, (w.confirmed e.2).length ≤ fuel)
    (txids : List Txid) (ops : List OutPoint) (gap t : Nat)
include hs hw hm hf

/-- **C62** the stop gap is honoured whatever the number of parallel requests: the transactions of a script are in the update, at their
positions, and the last active index of its keychain is not below, if no `gap` consecutive scripts before it are all without
transactions -/
theorem C62_gap_guarantee {r} (hr : scan s o m par fuel (n + 1) K ks txids ops gap t = .ok r) {k : K} {l : List (Nat × Script)} (hk : ks.get k = some l)
    {q : Nat} {e : Nat × Script} (hq : l[q]? = some e) {y : T} {pl : Place} (hy : (y, pl) ∈ w.history e.2)
    (h : ¬ ∃ i, i + gap ≤ q ∧ ∀ j, i ≤ j → j < i + gap → ∃ e, l[j]? = some e ∧ w.history e.2 = []) :
    r.update.chain.txPosition (asTx y).txid = some (positionOf pl) ∧ r.update.graph.getTx (asTx y).txid = some y ∧
    ∃ q' i spk, q ≤ q' ∧ l[q']? = some (i, spk) ∧ r.lastActiveIndices.get k = some i := by
  obtain ⟨r', h1, h2, -, h3⟩ := C62_scan_complete s w hs hw o m hm par fuel n K ks hf txids ops gap t
  rw [hr] at h1
  cases h1
  have hlen : q < l.length := (List.getElem?_eq_some_iff.1 hq).1
  have hreach := reached_of_gap w gap (max par 1) (by omega) l q hlen h
  have hfind := hw.listed e.2 (y, pl) hy
  obtain ⟨a1, a2⟩ := (h2 (asTx y).txid (positionOf pl) y).2 ⟨.inl ⟨k, l, q, e, (y, pl), hk, hreach, hq, hy, rfl⟩, pl, hfind, rfl⟩
  refine ⟨a1, a2, ?_⟩
  classical
  have hP : Reached w gap (max par 1) l q ∧ ∃ e, l[q]? = some e ∧ w.history e.2 ≠ [] := ⟨hreach, e, hq, List.ne_nil_of_mem hy⟩
  have hmax := Nat.findGreatest_spec (P := fun q => Reached w gap (max par 1) l q ∧ ∃ e, l[q]? = some e ∧ w.history e.2 ≠ []) (n := l.length)
    hlen.le hP
  have hge := Nat.le_findGreatest (P := fun q => Reached w gap (max par 1) l q ∧ ∃ e, l[q]? = some e ∧ w.history e.2 ≠ []) (n := l.length)
    hlen.le hP
  obtain ⟨b1, ⟨i, spk⟩, b2, b3⟩ := hmax
  refine ⟨_, i, spk, hge, b2, (h3 k i).2 ⟨l, _, spk, hk, b1, b2, b3, fun n' e' hlt hre he' => ?_⟩⟩
  by_contra hne
  have := Nat.le_findGreatest (P := fun q => Reached w gap (max par 1) l q ∧ ∃ e, l[q]? = some e ∧ w.history e.2 ≠ []) (n := l.length)
    hre.1.le ⟨hre, e', he', hne⟩
  omega

/-- **C62** more parallel requests never find less than single ones -/
theorem C62_single_requests (hgap : 0 < gap) {r1 r} (hr1 : scan s o m 1 fuel (n + 1) K ks txids ops gap t = .ok r1)
    (hr : scan s o m par fuel (n + 1) K ks txids ops gap t = .ok r) {x : Txid} {p : ConfirmationTime} (hx : r1.update.chain.txPosition x = some p) :
    r.update.chain.txPosition x = some p := by
  obtain ⟨r', h1, h2, h3, -⟩ := C62_scan_complete s w hs hw o m hm 1 fuel n K ks hf txids ops gap t
  rw [hr1] at h1
  cases h1
  obtain ⟨r', g1, g2, -, -⟩ := C62_scan_complete s w hs hw o m hm par fuel n K ks hf txids ops gap t
  rw [hr] at g1
  cases g1
  obtain ⟨y, hy⟩ := h3 x (by unfold InChain; rw [hx]; simp)
  obtain ⟨a1, a2⟩ := (h2 x p y).1 ⟨hx, hy⟩
  refine ((g2 x p y).2 ⟨?_, a2⟩).1
  rcases a1 with ⟨k, l, q, e, y', b1, b2, b3⟩ | a1
  · exact .inl ⟨k, l, q, e, y', b1, (reached_single w gap hgap l q).2 b2 _ (by omega), b3⟩
  · exact .inr a1

end Gap

/-- scripts 10 and 12 with one unused script between them -/
example : Reached exWorld 2 1 [(0, 10), (1, 22), (2, 12), (3, 23)] 3 ∧ ¬ Reached exWorld 1 1 [(0, 10), (1, 22), (2, 12), (3, 23)] 2 ∧
    Reached exWorld 1 4 [(0, 10), (1, 22), (2, 12), (3, 23)] 2 := by
  have hne : ¬ (exWorld.history 12 = []) := by decide
  have hne' : ¬ (exWorld.history 10 = []) := by decide
  refine ⟨?_, ?_, ?_⟩
  · refine (reached_single exWorld 2 (by decide) _ 3).1.2 ⟨by decide, ?_⟩
    rintro ⟨i, h1, h2⟩
    have : i = 0 ∨ i = 1 := by omega
    rcases this with rfl | rfl
    · obtain ⟨e, he, h⟩ := h2 0 (by omega) (by omega)
      cases he; exact hne' h
    · obtain ⟨e, he, h⟩ := h2 2 (by omega) (by omega)
      cases he; exact hne h
  · rintro ⟨-, h⟩
    refine h ⟨1, by omega, by omega, fun j h1 h2 => ?_⟩
    have : j = 1 := by omega
    subst this
    exact ⟨_, rfl, by decide⟩
  · refine ⟨by decide, ?_⟩
    rintro ⟨b, h, -⟩
    omega

/-- **C62** which transactions are found does depend on `parallel_requests`, although it is described as the number of requests made
in parallel only: with stop gap 1 a single request at a time stops at the second script, four find the third one too -/
theorem C62_parallelism_matters : ¬ ∀ (s : Server DemoTx) (w : World DemoTx) (m : OMap Nat BlockHash) (ks : OMap Nat (List (Nat × Script)))
    (gap par par' fuel n : Nat) (r r' : KeychainScan Nat ConfirmationTime DemoTx), s.Shows w → w.Sound → 0 < par → 0 < par' →
    scan s oT m par fuel n Nat ks [] [] gap 0 = .ok r → scan s oT m par' fuel n Nat ks [] [] gap 0 = .ok r' →
    ∀ x, r.update.chain.txPosition x = r'.update.chain.txPosition x := by
  intro h
  have h1 : ∃ r, scan (serverOf fun _ => exWorld) oT exLocal 1 1 1 Nat exSpks [] [] 1 0 = .ok r ∧ r.update.chain.txPosition (dId 3) = none := by
    have : (match scan (serverOf fun _ => exWorld) oT exLocal 1 1 1 Nat exSpks [] [] 1 0 with
      | .ok r => decide (r.update.chain.txPosition (dId 3) = none) | _ => false) = true := by decide +kernel
    rcases hx : scan (serverOf fun _ => exWorld) oT exLocal 1 1 1 Nat exSpks [] [] 1 0 with r | _ | _ | _ <;> rw [hx] at this
    · exact ⟨r, rfl, by simpa using this⟩
    all_goals cases this
  have h4 : ∃ r, scan (serverOf fun _ => exWorld) oT exLocal 4 1 1 Nat exSpks [] [] 1 0 = .ok r ∧
      r.update.chain.txPosition (dId 3) = some .unconfirmed := by
    have : (match scan (serverOf fun _ => exWorld) oT exLocal 4 1 1 Nat exSpks [] [] 1 0 with
      | .ok r => decide (r.update.chain.txPosition (dId 3) = some .unconfirmed) | _ => false) = true := by decide +kernel
    rcases hx : scan (serverOf fun _ => exWorld) oT exLocal 4 1 1 Nat exSpks [] [] 1 0 with r | _ | _ | _ <;> rw [hx] at this
    · exact ⟨r, rfl, by simpa using this⟩
    all_goals cases this
  obtain ⟨r, a1, a2⟩ := h1
  obtain ⟨r', b1, b2⟩ := h4
  have := h _ _ _ _ _ _ _ _ _ r r' (shows_serverOf _ sound_exWorld) sound_exWorld (by decide) (by decide) a1 b1 (dId 3)
  rw [a2, b2] at this
  cases this

/-- **C62** a wallet that is ahead of the server cannot scan: if the highest block of the wallet is above the tip of a server that does
not change, every scan fails (no update with what the server does know is made) -/
theorem C62_behind_server_errors (s : Server T) (w : World T) (hs : s.Shows w) (hw : w.Sound) (o : Orders ConfirmationTime T)
    (m : OMap Nat BlockHash) (h : Nat) (x : BlockHash) (hmax : m.last? = some (h, x)) (habove : w.tip.height < h)
    (par fuel n : Nat) (K : Type) [LinearOrder K]
    (ks : OMap K (List (Nat × Script))) (txids : List Txid) (ops : List OutPoint) (gap t : Nat) :
    scan s o m par fuel (n + 1) K ks txids ops gap t = .error := by
  have hlast : m.entries.reverse.head? = some (h, x) := by
    rw [List.head?_reverse]; exact hmax
  obtain ⟨l, hl⟩ : ∃ l, m.entries.reverse = (h, x) :: l := by
    cases hr : m.entries.reverse with
    | nil => rw [hr] at hlast; cases hlast
    | cons a l => rw [hr] at hlast; simp at hlast; exact ⟨l, by rw [hlast]⟩
  have hno : w.header h = none := by
    cases hh : w.header h with
    | none => rfl
    | some y => have := (hw.headers h).1 ⟨y, hh⟩; omega
  simp only [scan, pass, hl, checkpointLoop, hs.blockHash, hno]

example : (OMap.ofList [(2, 102), (7, 107)] : OMap Nat BlockHash).last? = some (7, 107) ∧ exWorld.tip.height < 7 := by decide

/-! ## reorganisations during a scan -/

/-- **C62** `scan_without_keychain` with a server that does not change: the update contains exactly the transactions of all the
given scripts, of the given txids, and those that contain or spend the given outpoints, each at its position; no script is skipped -/
theorem C62_without_keychain (s : Server T) (w : World T) (hs : s.Shows w) (hw : w.Sound) (o : Orders ConfirmationTime T)
    (m : OMap Nat BlockHash) (hm : ∀ h x, m.get h = some x → h ≤ w.tip.height) (par fuel n : Nat) (spks : List Script)
    (hf : ∀ spk ∈ spks, (w.confirmed spk).length ≤ fuel) (hlen : spks.length ≤ u64Max) (txids : List Txid) (ops : List OutPoint) (t : Nat) :
    ∃ u, scanWithoutKeychain s o m spks txids ops par fuel (n + 1) t = .ok u ∧
      ∀ x p y, (u.chain.txPosition x = some p ∧ u.graph.getTx x = some y) ↔
        ((∃ spk ∈ spks, ∃ e ∈ w.history spk, (asTx e.1).txid = x) ∨ FoundByTxid w txids x ∨ FoundByOutpoint w ops x) ∧
          ∃ pl, w.find x = some (y, pl) ∧ p = positionOf pl := by
  have hget : ∀ k l, (OMap.ofList [((), spks.zipIdx.map (fun e => (e.2, e.1)))] : OMap Unit (List (Nat × Script))).get k = some l ↔
      l = spks.zipIdx.map (fun e => (e.2, e.1)) := by
    intro k l
    have : (OMap.ofList [((), spks.zipIdx.map (fun e => (e.2, e.1)))] : OMap Unit (List (Nat × Script))).get k =
        some (spks.zipIdx.map (fun e => (e.2, e.1))) := by rfl
    rw [this]
    simp [eq_comm]
  obtain ⟨r, h1, h2, -, -⟩ := C62_scan_complete s w hs hw o m hm par fuel n Unit
    (OMap.ofList [((), spks.zipIdx.map (fun e => (e.2, e.1)))]) (by
      intro k l hl e he
      rw [hget] at hl
      subst hl
      obtain ⟨e', he', rfl⟩ := List.mem_map.1 he
      exact hf _ (List.mem_zipIdx' he' |>.2 ▸ List.getElem_mem _)) txids ops u64Max t
  refine ⟨r.update, by unfold scanWithoutKeychain; rw [h1], fun x p y => ?_⟩
  rw [h2]
  have hfound : FoundByScript w u64Max (max par 1) (OMap.ofList [((), spks.zipIdx.map (fun e => (e.2, e.1)))] : OMap Unit (List (Nat × Script))) x ↔
      ∃ spk ∈ spks, ∃ e ∈ w.history spk, (asTx e.1).txid = x := by
    unfold FoundByScript
    constructor
    · rintro ⟨k, l, j, e, tx, hl, -, hj, htx, hx⟩
      rw [hget] at hl
      subst hl
      obtain ⟨e', he', rfl⟩ := List.mem_map.1 (List.mem_of_getElem? hj)
      exact ⟨e'.1, List.mem_zipIdx' he' |>.2 ▸ List.getElem_mem _, tx, htx, hx⟩
    · rintro ⟨spk, hspk, tx, htx, hx⟩
      obtain ⟨j, hj, rfl⟩ := List.getElem_of_mem hspk
      refine ⟨(), _, j, (j, spks[j]), tx, (hget _ _).2 rfl, ⟨by simpa using hj, ?_⟩, by simp [hj], htx, hx⟩
      rintro ⟨b, h3, h4, -⟩
      omega
  rw [hfound]

/-! ## a reorganisation between collecting and the final check -/

/-- **C62** a reorganisation after the transactions have been collected: there is a moment (between the last of the requests for
transactions and the final check) such that a server that goes over from world `w1` to world `w2` then, where `w2` has another block
at the height of the tip of `w1`, makes the scan look up again what it has found: the update contains exactly the transactions that
were found in `w1` and still exist in `w2`, in full and at their positions in `w2`; it belongs to the chain of `w2`; the last active
indices are those of `w1`. -/
theorem C62_reorg_looked_up_again (s1 s2 : Server T) (w1 w2 : World T) (hs1 : s1.Shows w1) (hw1 : w1.Sound) (hs2 : s2.Shows w2)
    (hw2 : w2.Sound) (hne : w2.header w1.tip.height ≠ some w1.tip.hash) (hle : w1.tip.height ≤ w2.tip.height)
    (o : Orders ConfirmationTime T) (m : OMap Nat BlockHash) (hm : ∀ h x, m.get h = some x → h ≤ w1.tip.height) (par fuel n : Nat)
    (K : Type) [LinearOrder K] (ks : OMap K (List (Nat × Script)))
    (hf : ∀ k l, ks.get k = some l → ∀ e ∈ l, (w1.confirmed e.2).length ≤ fuel) (txids : List Txid) (ops : List OutPoint) (gap t : Nat) :
    ∃ N, t ≤ N ∧ ∃ r, scan (switch s1 s2 N) o m par fuel (n + 2) K ks txids ops gap t = .ok r ∧
      (∀ x p y, (r.update.chain.txPosition x = some p ∧ r.update.graph.getTx x = some y) ↔
        (FoundByScript w1 gap (max par 1) ks x ∨ FoundByTxid w1 txids x ∨ FoundByOutpoint w1 ops x) ∧
          ∃ pl, w2.find x = some (y, pl) ∧ p = positionOf pl) ∧
      (∀ x, InChain r.update.chain x → ∃ y, r.update.graph.getTx x = some y) ∧
      r.update.chain.latestCheckpoint = some w2.tip ∧
      (∀ h b, r.update.chain.checkpointAt h = some b → w2.header h = some b.hash) ∧
      ∀ k i, r.lastActiveIndices.get k = some i ↔ ∃ l, ks.get k = some l ∧ ∃ n spk, Reached w1 gap (max par 1) l n ∧
        l[n]? = some (i, spk) ∧ w1.history spk ≠ [] ∧
        ∀ n' e, n < n' → Reached w1 gap (max par 1) l n' → l[n']? = some e → w1.history e.2 = [] := by
  obtain ⟨r1, h1, h2, -, h4, h5⟩ := scan_static hs1 hw1 o m hm par fuel 0 K ks hf txids ops gap t
  obtain ⟨t', hp⟩ := scan_one o m par fuel K ks txids ops gap t h1
  obtain ⟨N, rfl, hN, hsame⟩ := pass_same o m ks txids ops gap par fuel t hp h2
  refine ⟨N, hN, ?_⟩
  have hpass := hsame (switch s1 s2 N) fun τ _ h => switch_before h
  rw [(switch_after (le_refl N)).blockHash, hs2.blockHash] at hpass
  obtain ⟨x2, hx2⟩ := (hw2.headers _).2 hle
  rw [hx2] at hpass hne
  have hne' : x2 ≠ w1.tip.hash := fun e => hne (by rw [e])
  simp only [ne_eq, hne', not_false_eq_true, decide_true] at hpass
  obtain ⟨r2, g1, g2, g3, g4, -⟩ := scan_static hs2 hw2 o m (fun h x hx => (hm h x hx).trans hle) par fuel 0 Unit
    (OMap.ofList [((), [])]) (by
      intro k l hl
      have : (OMap.ofList [((), ([] : List (Nat × Script)))]).get k = some [] := rfl
      rw [this] at hl
      cases hl
      exact fun e he => by cases he) (r1.update.chain.txids.map Prod.snd) [] u64Max (N + 1)
  obtain ⟨t2, hp2⟩ := scan_one o m par fuel Unit _ _ _ _ _ g1
  obtain ⟨N2, rfl, hN2, hsame2⟩ := pass_same o m _ _ _ _ par fuel _ hp2 g2
  have hpass2 := hsame2 (switch s1 s2 N) fun τ h _ => switch_after (by omega)
  rw [(switch_after (by omega)).blockHash, hs2.blockHash, hw2.tip_header] at hpass2
  simp only [ne_eq, not_true_eq_false, decide_false] at hpass2
  have hscan2 : scan (switch s1 s2 N) o m par fuel (n + 1) Unit (OMap.ofList [((), [])]) (r1.update.chain.txids.map Prod.snd) [] u64Max (N + 1) = .ok r2 := by
    simp only [scan]
    rw [hpass2]
  have hpa : PositionsAgree r1.update.chain := h4.upd.upd.pos
  have hmem : ∀ x, x ∈ r1.update.chain.txids.map Prod.snd ↔
      (FoundByScript w1 gap (max par 1) ks x ∨ FoundByTxid w1 txids x ∨ FoundByOutpoint w1 ops x) := by
    intro x
    rw [List.mem_map]
    constructor
    · rintro ⟨⟨p, y⟩, h, rfl⟩
      exact ((h4.pos y p).1 ((hpa.1 p y).1 h)).1
    · intro h
      have hex : ∃ tx pl, w1.find x = some (tx, pl) := by
        rcases h with ⟨k, l, j, e, tx, -, -, -, htx, rfl⟩ | ⟨-, ⟨tx, pl⟩, h⟩ | ⟨op, -, ⟨⟨tx, pl⟩, h1⟩, rfl | h2⟩
        · exact ⟨_, _, hw1.listed _ _ htx⟩
        · exact ⟨tx, pl, h⟩
        · exact ⟨tx, pl, h1⟩
        · obtain ⟨⟨tx, pl⟩, h3⟩ := hw1.spender_found _ _ _ h2; exact ⟨tx, pl, h3⟩
      obtain ⟨tx, pl, hx⟩ := hex
      exact ⟨(positionOf pl, x), (hpa.1 _ _).2 ((h4.pos x _).2 ⟨h, _, hx, rfl⟩), rfl⟩
  refine ⟨{ r1 with update := r2.update }, ?_, ?_, ?_, g2, g3, ?_⟩
  · rw [scan]
    rw [hpass]
    simp only
    rw [hscan2]
  · intro x p y
    have e0 : ∀ x, FoundByTxid w2 (r1.update.chain.txids.map Prod.snd) x ↔
        (FoundByScript w1 gap (max par 1) ks x ∨ FoundByTxid w1 txids x ∨ FoundByOutpoint w1 ops x) ∧ ∃ e, w2.find x = some e := by
      exact fun x => and_congr_left fun _ => hmem x
    rw [g4.exact]
    constructor
    · rintro ⟨⟨k, l, j, e, tx, hl, -, hj, -⟩ | h | ⟨op, h, -⟩, pl, h2⟩
      · have : (OMap.ofList [((), ([] : List (Nat × Script)))]).get k = some [] := rfl
        rw [this] at hl
        cases hl
        cases hj
      · exact ⟨((e0 x).1 h).1, pl, h2⟩
      · cases h
    · rintro ⟨h, pl, h2⟩
      exact ⟨.inr (.inl ((e0 x).2 ⟨h, _, h2.1⟩)), pl, h2⟩
  · exact (ChainGraph.reachable_inv g4.upd.reach).full
  · intro k i
    rw [h5]
    exact Iff.rfl

/-- the blocks from 6 on of `exWorld` have been replaced, transaction 3 is gone, the other transactions are the same -/
def exReplaced : World DemoTx := { exWorld with
  tip := ⟨7, 207⟩
  header := fun h => if h ≤ 5 then some (100 + h) else if h ≤ 7 then some (200 + h) else none
  find := fun x => if x = dId 3 then none else exWorld.find x
  mempool := fun k => if k = 10 then [d 1] else if k = 12 then [d 1] else []
  spender := fun x v => if x = dId 0 ∧ v = 0 then some (dId 1) else none }

theorem sound_exReplaced : exReplaced.Sound := by
  have hfind : ∀ x e, exReplaced.find x = some e → exWorld.find x = some e := by
    intro x e h
    simp only [exReplaced] at h
    by_cases e3 : x = dId 3
    · rw [if_pos e3] at h; cases h
    · rw [if_neg e3] at h; exact h
  refine ⟨rfl, ?_, by decide, ?_, fun x e h => sound_exWorld.found x e (hfind x e h),
    fun x t h time hf => (sound_exWorld.below x t h time (hfind _ _ hf)).trans (by decide), sound_exWorld.once, ?_,
    fun x y a b op ha hb => sound_exWorld.no_double_spend x y a b op (hfind _ _ ha) (hfind _ _ hb)⟩
  · intro h
    simp only [exReplaced]
    by_cases e : h ≤ 5
    · simp [e]; omega
    · by_cases e2 : h ≤ 7 <;> simp [e, e2]
  · intro spk e he
    unfold World.history World.settled at he
    simp only [exReplaced, exWorld] at he
    by_cases e1 : spk = 10
    · subst e1
      rw [if_pos rfl, if_pos rfl] at he
      simp at he
      rcases he with rfl | rfl <;> decide
    · by_cases e2 : spk = 12
      · subst e2
        simp at he
        subst he; decide
      · simp [e1, e2] at he
  · intro x v y h
    simp only [exReplaced] at h
    by_cases e1 : x = dId 0 ∧ v = 0
    · rw [if_pos e1] at h; cases h; exact ⟨(d 1, none), by decide⟩
    · rw [if_neg e1] at h; cases h

example : exReplaced.header exWorld.tip.height ≠ some exWorld.tip.hash ∧ exWorld.tip.height ≤ exReplaced.tip.height := by decide

/-- a run: the worlds are switched before request 8, the final check -/
example : (match scan (switch (serverOf fun _ => exWorld) (serverOf fun _ => exReplaced) 8) oT exLocal 2 1 2 Nat exSpks [] [] 2 0 with
    | .ok r => decide (r.update.chain.latestCheckpoint = some ⟨7, 207⟩ ∧ r.update.chain.txPosition (dId 0) = some (.confirmed 4 44) ∧
        r.update.chain.txPosition (dId 1) = some .unconfirmed ∧ r.update.chain.txPosition (dId 3) = none ∧
        r.lastActiveIndices.get 1 = some 2)
    | _ => false) = true := by decide +kernel

/-- transaction 1 is confirmed in block 6, found at script 10 -/
def exBefore : World DemoTx where
  tip := ⟨6, 106⟩
  header h := if h ≤ 6 then some (100 + h) else none
  mempool _ := []
  confirmed k := if k = 10 then [(d 1, 6, 60)] else []
  find x := if x = dId 1 then some (d 1, some (6, 60)) else none
  spender _ _ := none

/-- block 6 has been replaced: instead of 1 it contains 2, which spends the same output, found at script 12 -/
def exAfter : World DemoTx where
  tip := ⟨6, 206⟩
  header h := if h ≤ 5 then some (100 + h) else if h = 6 then some 206 else none
  mempool _ := []
  confirmed k := if k = 12 then [(d 2, 6, 61)] else []
  find x := if x = dId 2 then some (d 2, some (6, 61)) else none
  spender _ _ := none

theorem sound_exAfter : exAfter.Sound := by
  have hfind : ∀ x e, exAfter.find x = some e → x = dId 2 ∧ e = (d 2, some (6, 61)) := by
    intro x e h
    simp only [exAfter] at h
    by_cases e0 : x = dId 2
    · rw [if_pos e0] at h; cases h; exact ⟨e0, rfl⟩
    · rw [if_neg e0] at h; cases h
  refine ⟨rfl, ?_, by decide, ?_, ?_, ?_, ?_, ?_, ?_⟩
  · intro h
    simp only [exAfter]
    by_cases e : h ≤ 5
    · simp [e]; omega
    · by_cases e2 : h = 6
      · simp [e2]
      · simp [e, e2]; omega
  · intro spk e he
    unfold World.history World.settled at he
    simp only [exAfter] at he
    by_cases e1 : spk = 12
    · subst e1
      simp at he
      subst he; decide
    · simp [e1] at he
  · intro x e h
    obtain ⟨rfl, rfl⟩ := hfind x e h
    decide
  · intro x t h time hf
    obtain ⟨-, h⟩ := hfind _ _ hf
    cases h; decide
  · intro spk
    simp only [exAfter]
    by_cases e1 : spk = 12 <;> simp [e1]
  · intro x v y h; simp [exAfter] at h
  · intro x y a b op ha hb _ _ _
    rw [(hfind _ _ ha).1, (hfind _ _ hb).1]

/-- **C62** the comments in the code say that conflicts met during a scan "are dealt with below" when a reorganisation is noticed.  They
are not: the block with transaction 1 is replaced by one with the conflicting transaction 2 during the scan.  2 is found at script
12 but not recorded because 1 is in the update as confirmed; afterwards only the recorded transactions are looked up again.  So
the scan succeeds, its update lies in the new chain, it reports script 12 as active, the server has shown 2 during the scan and has it
confirmed in that chain, and yet the update does not contain 2. -/
theorem C62_reorg_loses_transaction : ∃ (r : KeychainScan Nat ConfirmationTime DemoTx),
    scan (serverOf fun t => if t < 4 then exBefore else exAfter) oT (OMap.ofList [(2, 102)]) 1 1 2 Nat (OMap.ofList [(0, [(0, 10), (1, 12)])])
      [] [] 5 0 = .ok r ∧
    exAfter.Sound ∧ r.update.chain.latestCheckpoint = some exAfter.tip ∧ r.lastActiveIndices.get 0 = some 1 ∧
    (d 2, some (6, 61)) ∈ exAfter.history 12 ∧ r.update.chain.txPosition (dId 2) = none := by
  have h : (match scan (serverOf fun t => if t < 4 then exBefore else exAfter) oT (OMap.ofList [(2, 102)]) 1 1 2 Nat
      (OMap.ofList [(0, [(0, 10), (1, 12)])]) [] [] 5 0 with
    | .ok r => decide (r.update.chain.latestCheckpoint = some ⟨6, 206⟩ ∧ r.lastActiveIndices.get 0 = some 1 ∧
        r.update.chain.txPosition (dId 2) = none)
    | _ => false) = true := by decide +kernel
  rcases hx : scan (serverOf fun t => if t < 4 then exBefore else exAfter) oT (OMap.ofList [(2, 102)]) 1 1 2 Nat
      (OMap.ofList [(0, [(0, 10), (1, 12)])]) [] [] 5 0 with r | _ | _ | _ <;> rw [hx] at h
  · simp only [decide_eq_true_eq] at h
    exact ⟨r, rfl, sound_exAfter, h.1, h.2.1, by decide, h.2.2⟩
  all_goals cases h

end Verif.Esplora
