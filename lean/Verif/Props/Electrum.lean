import Verif.Lemmas.Electrum5
import Verif.Props.Limits

/-!
# Properties C49, C50, C51: electrum scans
-/

namespace Verif.Electrum
open Verif Spec SparseChain Verif.Props

variable {K : Type} [LinearOrder K]

/-! ## Example worlds -/

/-- two transactions: 1 pays script 20, 2 spends its output to script 21 -/
def exTx1 : Tx := ⟨1, [⟨0, 3⟩], [⟨50, 20⟩], by decide⟩
def exTx2 : Tx := ⟨2, [⟨1, 0⟩], [⟨40, 21⟩], by decide⟩
/-- a chain up to block 5 whose hash at height `h` is `100 + h`; transaction 1 is in block 3, transaction 2 unconfirmed -/
def exWorld : World where
  tip := ⟨5, 105⟩
  header h := if h ≤ 5 then some (100 + h) else none
  history k := if k = 20 then [(1, 3), (2, 0)] else if k = 21 then [(2, 0)] else []
  tx x := if x = 1 then some exTx1 else if x = 2 then some exTx2 else none
/-- the same after block 5 was replaced -/
def exWorld' : World := { exWorld with
  tip := ⟨5, 205⟩
  header := fun h => if h = 5 then some 205 else if h ≤ 4 then some (100 + h) else none }
/-- the same after blocks 3 to 5 were replaced and transaction 1 went to block 4 -/
def exWorld'' : World := { exWorld with
  tip := ⟨5, 205⟩
  header := fun h => if h ≤ 2 then some (100 + h) else if h ≤ 5 then some (200 + h) else none
  history := fun k => if k = 20 then [(1, 4), (2, 0)] else if k = 21 then [(2, 0)] else [] }
/-- the wallet has blocks 2 (still in the chain) and 4 (stale) -/
def exLocal : OMap Nat BlockHash := OMap.ofList [(2, 102), (4, 999)]
/-- keychain 0 has no used script, keychain 1 has two used scripts -/
def exSpks : OMap Nat (List (Nat × Script)) := OMap.ofList [(0, [(0, 10), (1, 11)]), (1, [(0, 20), (1, 12), (2, 21), (3, 13), (4, 14)])]

theorem sound_exWorld : exWorld.Sound := by
  refine ⟨rfl, ?_, by decide, ?_⟩
  · intro h
    unfold exWorld
    by_cases e : h ≤ 5 <;> simp [e]
  · intro k k' x a b h1 h2
    simp only [exWorld] at h1 h2
    by_cases e1 : k = 20 <;> by_cases e2 : k' = 20 <;> by_cases e3 : k = 21 <;> by_cases e4 : k' = 21 <;>
      simp [e1, e2, e3, e4] at h1 h2 <;> simp_all
    rcases h1 with ⟨rfl, rfl⟩ | ⟨rfl, rfl⟩ <;> rcases h2 with ⟨h, rfl⟩ | ⟨h, rfl⟩ <;> first | rfl | exact absurd h (by decide)

theorem sound_exWorld' : exWorld'.Sound := by
  refine ⟨rfl, ?_, by decide, sound_exWorld.4⟩
  intro h
  simp only [exWorld']
  by_cases e : h = 5
  · simp [e]
  · by_cases e2 : h ≤ 4
    · simp [e, e2]; omega
    · simp [e, e2]; omega

theorem sound_exWorld'' : exWorld''.Sound := by
  refine ⟨rfl, ?_, by decide, ?_⟩
  · intro h
    simp only [exWorld'']
    by_cases e : h ≤ 2
    · simp [e]; omega
    · by_cases e2 : h ≤ 5 <;> simp [e, e2]
  · intro k k' x a b h1 h2
    simp only [exWorld''] at h1 h2
    by_cases e1 : k = 20 <;> by_cases e2 : k' = 20 <;> by_cases e3 : k = 21 <;> by_cases e4 : k' = 21 <;>
      simp [e1, e2, e3, e4] at h1 h2 <;> simp_all
    rcases h1 with ⟨rfl, rfl⟩ | ⟨rfl, rfl⟩ <;> rcases h2 with ⟨h, rfl⟩ | ⟨h, rfl⟩ <;> first | rfl | exact absurd h (by decide)

theorem complete_exWorld : exWorld.Complete [⟨1, 0⟩] := by
  have hx : ∀ x tx, exWorld.tx x = some tx → (x = 1 ∧ tx = exTx1) ∨ (x = 2 ∧ tx = exTx2) := by
    intro x tx h
    simp only [exWorld] at h
    by_cases e1 : x = 1
    · simp [e1] at h; exact .inl ⟨e1, h.symm⟩
    · by_cases e2 : x = 2
      · simp [e2] at h; exact .inr ⟨e2, h.symm⟩
      · simp [e1, e2] at h
  refine ⟨?_, ?_, ?_, ?_⟩
  · intro k x a h
    simp only [exWorld] at h ⊢
    by_cases e1 : k = 20
    · simp [e1] at h; rcases h with h | h <;> simp [h]
    · by_cases e2 : k = 21
      · simp [e2] at h; simp [h]
      · simp [e1, e2] at h
  · intro op h
    simp at h; subst h; exact ⟨exTx1, rfl⟩
  · intro x tx h
    rcases hx x tx h with ⟨-, rfl⟩ | ⟨-, rfl⟩ <;> simp [exTx1, exTx2]
  · intro k op _ x y a b tx ty _ _ h1 h2 h3 h4
    rcases hx x tx h1 with ⟨rfl, rfl⟩ | ⟨rfl, rfl⟩ <;> rcases hx y ty h2 with ⟨rfl, rfl⟩ | ⟨rfl, rfl⟩
    · rfl
    · simp [exTx1, exTx2] at h3 h4; rw [h3] at h4; exact absurd h4 (by decide)
    · simp [exTx1, exTx2] at h3 h4; rw [h3] at h4; exact absurd h4 (by decide)
    · rfl

theorem shows_twoWorlds (w : World) (n : Nat) : (twoWorlds w w n).Shows w := by
  refine ⟨fun t => ?_, fun t h => ?_, fun t k => ?_, fun t x => ?_⟩ <;> simp only [twoWorlds, ite_self]

/-! ## C51: heights -/

/-- **C51** how a raw electrum height is read -/
theorem C51_height_reading (raw : Int) (tip : Nat) (x : Txid) (p : TxHeight) :
    determineTxHeight raw tip x = p ↔ IsHeightOf raw tip x p := by
  unfold determineTxHeight IsHeightOf
  by_cases hx : x = genesisTxid
  · simp [hx, eq_comm]
  · rw [if_neg hx]
    by_cases h0 : raw ≤ 0
    · rw [if_pos h0]
      constructor
      · rintro rfl; exact .inr (.inr ⟨hx, by omega, rfl⟩)
      · rintro (h | h | h)
        · exact absurd h.1 hx
        · omega
        · exact h.2.2.symm
    · rw [if_neg h0]
      by_cases h1 : tip < raw.toNat
      · rw [if_pos h1]
        constructor
        · rintro rfl; exact .inr (.inr ⟨hx, by omega, rfl⟩)
        · rintro (h | h | h)
          · exact absurd h.1 hx
          · omega
          · exact h.2.2.symm
      · rw [if_neg h1]
        constructor
        · rintro rfl; exact .inr (.inl ⟨hx, by omega, by omega, raw.toNat, by omega, rfl⟩)
        · rintro (h | ⟨-, -, -, h, h2, rfl⟩ | h)
          · exact absurd h.1 hx
          · congr 1; omega
          · omega

example : determineTxHeight (-1) 5 1 = .unconfirmed ∧ determineTxHeight 6 5 1 = .unconfirmed ∧
    determineTxHeight 5 5 1 = .confirmed 5 ∧ determineTxHeight 0 5 genesisTxid = .confirmed 0 := by decide

/-- **C51** with any server, honest or not and changing at any moment, the scan does not panic (`unreachable!` and
`expect` are never hit).  The update it returns belongs to one stretch of time: at its start `T` the server named a block
of the update as its tip, at its end `t2` it confirmed the highest block of the update, and every transaction of the
update was reported in a history in between, stands at the height reported there, read relative to the tip of the update,
and is not above that tip. -/
theorem C51_positions_reported (s : Server) (ho : Order) (m : OMap Nat BlockHash)
    (ks : OMap K (List (Nat × Script))) (txids : List Txid) (ops : List OutPoint) (gap bs n t : Nat)
    (hsmall : ∀ t b, s.tip t = some b → b.height < u32Max) (hm : ∀ h x, m.get h = some x → h < u32Max)
    (hout : ∀ t x tx, s.tx t x = .ok tx → tx.output ≠ []) :
    scan s ho m ks txids ops gap bs n t ≠ .panic ∧
    ∀ r, scan s ho m ks txids ops gap bs n t = .ok r →
      HeightsOk r.chainUpdate ∧ PositionsAgree r.chainUpdate ∧ ConfirmedBelowTip r.chainUpdate ∧
      ∃ T t2 start tip, t ≤ T ∧ T < t2 ∧ s.tip T = some start ∧ r.chainUpdate.checkpointAt start.height = some start ∧
        r.chainUpdate.latestCheckpoint = some tip ∧ s.header t2 tip.height = some tip.hash ∧
        ∀ x p, r.chainUpdate.txPosition x = some p →
          ∃ t' k l raw, T < t' ∧ t' < t2 ∧ s.history t' k = some l ∧ (x, raw) ∈ l ∧ IsHeightOf raw tip.height x p := by
  obtain ⟨h1, h2⟩ := scan_spec s ho m hsmall hout hm ks txids ops gap bs n t
  refine ⟨h1, fun r hr => ?_⟩
  obtain ⟨tip, T, t2, hf⟩ := h2 r hr
  obtain ⟨b, hb1, hb2, -⟩ := hf.upd.latest
  obtain ⟨start, hs1, hs2⟩ := hf.begin
  obtain ⟨b', hb1', hb3⟩ := hf.final
  rw [hb1] at hb1'
  cases hb1'
  refine ⟨hf.upd.heights, hf.upd.pos, fun x p h hx hp => ⟨tip, hf.upd.isTip, hf.upd.below x p h hx hp⟩,
    T, t2, start, b, hf.started, hf.order, hs1, hs2, hb1, hb3, fun x p hx => ?_⟩
  obtain ⟨t', k, l, raw, h3, h4, h5, h6, h7⟩ := hf.pos x p hx
  exact ⟨t', k, l, raw, h3, h4, h5, h6, (C51_height_reading _ _ _ _).1 (by rw [hb2]; exact h7.symm)⟩

/-- a scan of a server that changes half way finishes with two transactions in the update -/
example : ∃ r, scan (twoWorlds exWorld exWorld' 3) (HashOrder.id _) exLocal exSpks [] [⟨1, 0⟩] 1 2 3 0 = .ok r ∧
    r.chainUpdate.txPosition 1 = some (.confirmed 3) ∧ r.chainUpdate.txPosition 2 = some .unconfirmed := by
  have h : (match scan (twoWorlds exWorld exWorld' 3) (HashOrder.id _) exLocal exSpks [] [⟨1, 0⟩] 1 2 3 0 with
    | .ok r => decide (r.chainUpdate.txPosition 1 = some (.confirmed 3) ∧ r.chainUpdate.txPosition 2 = some .unconfirmed)
    | _ => false) = true := by decide +kernel
  cases hr : scan (twoWorlds exWorld exWorld' 3) (HashOrder.id _) exLocal exSpks [] [⟨1, 0⟩] 1 2 3 0 with
  | ok r => rw [hr] at h; exact ⟨r, rfl, by simpa using h⟩
  | reorg => rw [hr] at h; cases h
  | error => rw [hr] at h; cases h
  | panic => rw [hr] at h; cases h
  | pending => rw [hr] at h; cases h

/-! ## C49: the update connects -/

/-- **C49** whatever the server answers and whenever it changes, as long as its tip is never below a wallet checkpoint,
the wallet never refuses the update for not connecting -/
theorem C49_update_connects (s : Server) (ho : Order) (m : OMap Nat BlockHash)
    (ks : OMap K (List (Nat × Script))) (txids : List Txid) (ops : List OutPoint) (gap bs n t : Nat)
    (hsmall : ∀ t b, s.tip t = some b → b.height < u32Max) (hout : ∀ t x tx, s.tx t x = .ok tx → tx.output ≠ [])
    (htips : ∀ t b h x, s.tip t = some b → m.get h = some x → h ≤ b.height)
    (c : SparseChain TxHeight) (hc : CheckpointsOf c m) (hok : HeightsOk c)
    (r : ElectrumUpdate K TxHeight) (hr : scan s ho m ks txids ops gap bs n t = .ok r) (ho' : Order) (f : Nat) :
    (c.applyUpdate r.chainUpdate ho').2 ≠ .error (.notConnected f) := by
  have hm : ∀ h x, m.get h = some x → h < u32Max := fun h x hx => hok.1 h ⟨⟨h, x⟩, by rw [hc, hx]; rfl⟩
  obtain ⟨tip, T, t2, hf⟩ := (scan_spec s ho m hsmall hout hm ks txids ops gap bs n t).2 r hr
  have h5 := hf.connects
  rw [Ne, C01_not_connected_iff c _ ho' hok]
  rintro ⟨⟨-, ⟨b, hb⟩, habove, -⟩, hno⟩
  rw [hc, Option.map_eq_some_iff] at hb
  obtain ⟨x, hx, -⟩ := hb
  rcases h5 htips f x hx with ⟨b', hb'⟩ | ⟨a, y, hlt, hy, ha⟩
  · exact hno ⟨b', hb'⟩
  · have := habove a ⟨⟨a, y⟩, by rw [hc, hy]; rfl, ha⟩
    omega

/-- the hypotheses hold for the two worlds above -/
example : (∀ t b, (twoWorlds exWorld exWorld' 3).tip t = some b → b.height < u32Max) ∧
    (∀ t b h x, (twoWorlds exWorld exWorld' 3).tip t = some b → exLocal.get h = some x → h ≤ b.height) ∧
    CheckpointsOf (SparseChain.fromCheckpoints [⟨2, 102⟩, ⟨4, 999⟩] : SparseChain TxHeight) exLocal := by
  have ht : ∀ t b, (twoWorlds exWorld exWorld' 3).tip t = some b → b.height = 5 := by
    intro t b h
    simp only [twoWorlds] at h
    by_cases e : t < 3 <;> simp [e] at h <;> rw [← h] <;> rfl
  refine ⟨fun t b h => by rw [ht t b h]; decide, fun t b h x h1 h2 => ?_, fun h => rfl⟩
  rw [ht t b h1]
  have := OMap.ofList_mem h2
  simp at this
  omega

/-- **C49** if the server's tip may drop below a wallet checkpoint between two answers, the update may fail to connect:
blocks 5 and 6 are replaced, and the tip is asked at a moment when only block 5 has been replaced again -/
theorem C49_fails_if_tip_drops :
    ¬ ∀ (s : Server) (m : OMap Nat BlockHash) (c : SparseChain TxHeight) (u : Update) (t' : Nat) (ho : Order) (f : Nat),
      CheckpointsOf c m → HeightsOk c → prepareUpdate s ho m 1 0 = (.ok u, t') →
      (c.applyUpdate u ho).2 ≠ .error (.notConnected f) := by
  intro h
  let s : Server :=
    { tip := fun _ => some ⟨5, 205⟩, header := fun _ k => if k = 5 then some 105 else some (200 + k)
      headerTime := fun _ _ => none, history := fun _ _ => some [], tx := fun _ _ => .otherErr }
  let m : OMap Nat BlockHash := OMap.ofList [(1, 101), (5, 105), (6, 106)]
  let c : SparseChain TxHeight := SparseChain.fromCheckpoints [⟨1, 101⟩, ⟨5, 105⟩, ⟨6, 106⟩]
  let u : Update := SparseChain.fromCheckpoints [⟨5, 205⟩, ⟨6, 206⟩]
  refine h s m c u 3 (HashOrder.id _) 1 (fun _ => rfl) (heightsOk_of_B (by decide)) ?_ ?_
  · have h1 : (prepareUpdate s (HashOrder.id _) m 1 0).1 = .ok u ∧ (prepareUpdate s (HashOrder.id _) m 1 0).2 = 3 := by
      decide +kernel
    exact Prod.ext h1.1 h1.2
  · decide +kernel

/-- **C49** a server that does not change: the scan finishes in its first round, the update ends at the server's tip, all
its blocks are the server's, and once the wallet has applied it every wallet checkpoint is a block of the server's chain.
(Two chains that share a block share all blocks below: `hlink`.) -/
theorem C49_wallet_follows_server (s : Server) (w : World) (hs : s.Shows w) (hw : w.Sound) (ops : List OutPoint)
    (hcomp : w.Complete ops) (ho : Order) (m : OMap Nat BlockHash) (hm : ∀ h x, m.get h = some x → h ≤ w.tip.height)
    (ks : OMap K (List (Nat × Script))) (hnd : ∀ k l, ks.get k = some l → (l.map Prod.fst).Nodup) (txids : List Txid)
    (gap bs : Nat) (hbs : 0 < bs) (n t : Nat)
    (c : SparseChain TxHeight) (hc : CheckpointsOf c m) (hok : HeightsOk c) (hpa : PositionsAgree c)
    (hlim : SparseChain.Limited c) (hz : c.checkpointLimit ≠ some 0)
    (hlink : ∀ a b x y, a ≤ b → m.get a = some x → m.get b = some y → w.header b = some y → w.header a = some x) :
    ∃ r, scan s ho m ks txids ops gap bs (n + 1) t = .ok r ∧ r.chainUpdate.latestCheckpoint = some w.tip ∧
      (∀ h b, r.chainUpdate.checkpointAt h = some b → w.header h = some b.hash) ∧
      ∀ ho' cs, (c.applyUpdate r.chainUpdate ho').2 = .ok cs →
        (c.applyUpdate r.chainUpdate ho').1.latestCheckpoint = some w.tip ∧
        ∀ h b, (c.applyUpdate r.chainUpdate ho').1.checkpointAt h = some b → w.header h = some b.hash := by
  obtain ⟨r, h1, h2, h3, h4, h5, -, -⟩ := scan_static hs hw hcomp ho m hm ks hnd txids gap bs hbs n t
  refine ⟨r, h1, h3, h4, fun ho' cs hcs => ?_⟩
  have happ : c.applyUpdate r.chainUpdate ho' = ((c.applyUpdate r.chainUpdate ho').1, .ok cs) := Prod.ext rfl hcs
  obtain ⟨full, hcp, hsub, htop⟩ := Props.checkpoints_some_limit c r.chainUpdate _ ho' cs hok hpa hlim hz happ
  have hall : ∀ h b, full.checkpointAt h = some b → w.header h = some b.hash := by
    intro h b hb
    obtain ⟨e1, e2, e3⟩ := hcp h
    by_cases hu : HasCp r.chainUpdate h
    · rw [e1 hu] at hb; exact h4 h b hb
    · by_cases hi : Invalidated c r.chainUpdate h
      · rw [e2 hu hi] at hb; cases hb
      · rw [e3 hu hi, hc, Option.map_eq_some_iff] at hb
        obtain ⟨x, hx, rfl⟩ := hb
        rcases h5 h x hx with ⟨b', hb'⟩ | ⟨a, y, hlt, hy, ha⟩
        · exact absurd ⟨b', hb'⟩ hu
        · exact hlink h a x y (le_of_lt hlt) hx hy (h4 a _ ha)
  have htu := (latestCheckpoint_eq.1 h3).2
  have htc : (c.applyUpdate r.chainUpdate ho').1.checkpointAt w.tip.height = some w.tip := by
    rw [htop _ (fun j ⟨b, hb⟩ => (hw.headers j).1 ⟨_, hall j b hb⟩), (hcp w.tip.height).1 ⟨_, htu⟩]; exact htu
  refine ⟨latestCheckpoint_eq.2 ⟨⟨⟨_, htc⟩, ?_⟩, htc⟩, fun h b hb => hall h b (hsub h b hb)⟩
  rintro h ⟨b, hb⟩
  exact (hw.headers h).1 ⟨_, hall h b (hsub h b hb)⟩

/-- the hypotheses of the theorem hold of a wallet with a stale block -/
example : (∀ h x, exLocal.get h = some x → h ≤ exWorld.tip.height) ∧
    (∀ k l, exSpks.get k = some l → (l.map Prod.fst).Nodup) ∧
    (∀ a b x y, a ≤ b → exLocal.get a = some x → exLocal.get b = some y → exWorld.header b = some y →
      exWorld.header a = some x) := by
  have hl : ∀ h x, exLocal.get h = some x → (h, x) = (2, 102) ∨ (h, x) = (4, 999) := by
    intro h x hx
    have := OMap.ofList_mem hx
    simpa using this
  refine ⟨?_, ?_, ?_⟩
  · intro h x hx
    rcases hl h x hx with e | e <;> cases e <;> decide
  · intro k l hk
    have := OMap.ofList_mem hk
    simp only [List.mem_cons, Prod.mk.injEq, List.not_mem_nil, or_false] at this
    rcases this with ⟨-, rfl⟩ | ⟨-, rfl⟩ <;> decide
  · intro a b x y hab ha hb hh
    rcases hl a x ha with e | e <;> rcases hl b y hb with e' | e' <;> cases e <;> cases e'
    · rfl
    · exact absurd hh (by decide)
    · omega
    · exact absurd hh (by decide)

/-! ## C50: stop gap -/

/-- **C50** a server that does not change: the scan finishes in its first round, and the update contains exactly the
transactions in the histories of the scripts before (and in) the first run of `gap + 1` unused ones of each keychain, of
the requested txids and of the requested outpoints, each at its height; the last active index of a keychain is the highest
index of a scanned script with a history -/
theorem C50_scan_complete (s : Server) (w : World) (hs : s.Shows w) (hw : w.Sound) (ops : List OutPoint)
    (hcomp : w.Complete ops) (ho : Order) (m : OMap Nat BlockHash) (hm : ∀ h x, m.get h = some x → h ≤ w.tip.height)
    (ks : OMap K (List (Nat × Script))) (hnd : ∀ k l, ks.get k = some l → (l.map Prod.fst).Nodup) (txids : List Txid)
    (gap bs : Nat) (hbs : 0 < bs) (n t : Nat) :
    ∃ r, scan s ho m ks txids ops gap bs (n + 1) t = .ok r ∧
      (∀ x p, r.chainUpdate.txPosition x = some p ↔ ∃ raw, (FoundByScript w gap ks x raw ∨ FoundByTxid w txids x raw ∨
        FoundByOutpoint w ops x raw) ∧ IsHeightOf raw w.tip.height x p) ∧
      (∀ k i, r.lastActive.get k = some i ↔ IsGreatest {i | ∃ l n spk, ks.get k = some l ∧ Reached w gap l n ∧
        l[n]? = some (i, spk) ∧ w.history spk ≠ []} i) := by
  obtain ⟨r, h1, -, -, -, -, h2, h3⟩ := scan_static hs hw hcomp ho m hm ks hnd txids gap bs hbs n t
  refine ⟨r, h1, fun x p => ?_, h3⟩
  rw [h2]
  refine exists_congr (fun raw => and_congr_right (fun _ => ?_))
  rw [← C51_height_reading, eq_comm]

/-- **C50** the batch size and the start time do not matter -/
theorem C50_batch_size_irrelevant (s : Server) (w : World) (hs : s.Shows w) (hw : w.Sound) (ops : List OutPoint)
    (hcomp : w.Complete ops) (ho : Order) (m : OMap Nat BlockHash) (hm : ∀ h x, m.get h = some x → h ≤ w.tip.height)
    (ks : OMap K (List (Nat × Script))) (hnd : ∀ k l, ks.get k = some l → (l.map Prod.fst).Nodup) (txids : List Txid)
    (gap bs bs' : Nat) (hbs : 0 < bs) (hbs' : 0 < bs') (n n' t t' : Nat) (r r' : ElectrumUpdate K TxHeight)
    (hr : scan s ho m ks txids ops gap bs (n + 1) t = .ok r) (hr' : scan s ho m ks txids ops gap bs' (n' + 1) t' = .ok r') :
    (∀ x, r.chainUpdate.txPosition x = r'.chainUpdate.txPosition x) ∧ r.lastActive = r'.lastActive := by
  obtain ⟨q, h1, h2, h3⟩ := C50_scan_complete s w hs hw ops hcomp ho m hm ks hnd txids gap bs hbs n t
  obtain ⟨q', h1', h2', h3'⟩ := C50_scan_complete s w hs hw ops hcomp ho m hm ks hnd txids gap bs' hbs' n' t'
  rw [hr] at h1; cases h1
  rw [hr'] at h1'; cases h1'
  constructor
  · intro x
    have : ∀ p, r.chainUpdate.txPosition x = some p ↔ r'.chainUpdate.txPosition x = some p := fun p => by rw [h2, h2']
    cases ha : r.chainUpdate.txPosition x with
    | none =>
      cases hb : r'.chainUpdate.txPosition x with
      | none => rfl
      | some p => rw [(this p).2 hb] at ha; cases ha
    | some p => exact ((this p).1 ha).symm
  · refine OMap.ext_get (fun k => ?_)
    have : ∀ p, r.lastActive.get k = some p ↔ r'.lastActive.get k = some p := fun p => by rw [h3, h3']
    cases ha : r.lastActive.get k with
    | none =>
      cases hb : r'.lastActive.get k with
      | none => rfl
      | some p => rw [(this p).2 hb] at ha; cases ha
    | some p => exact ((this p).1 ha).symm

/-- the state a scan starts with -/
theorem known_start (ks : OMap K (List (Nat × Script))) : Known ks ⟨ks.entries, OMap.empty⟩ :=
  ⟨fun k l h => ⟨l, OMap.mem_entries.1 h, fun _ he => he⟩, fun k i v h => by cases h⟩

theorem scan_active (s : Server) (ho : Order) (m : OMap Nat BlockHash)
    (ks : OMap K (List (Nat × Script))) (txids : List Txid) (ops : List OutPoint) (gap bs n t : Nat)
    (hsm : SmallTips s) (hout : HasOutputs s) (hm : ∀ h x, m.get h = some x → h < u32Max)
    (r : ElectrumUpdate K TxHeight) (hr : scan s ho m ks txids ops gap bs n t = .ok r) :
    ∃ tip T t2, Finished s m t r.chainUpdate tip T t2 ∧ ∀ k i, r.lastActive.get k = some i → ∃ l spk, ks.get k = some l ∧
      (i, spk) ∈ l ∧ ActiveReported s 0 spk true ∧ (0 < bs → totalSpks ks ≤ gap → ActiveReported s (T + 1) spk true) := by
  unfold scan at hr
  rcases hl : scanLoop s ho m txids ops gap bs n ⟨ks.entries, OMap.empty⟩ t with ⟨st, u⟩ | _ | _ | _ | _
  · rw [hl] at hr
    cases hr
    obtain ⟨h1, h2, h3, tip, T, t2, h4, h5⟩ := scanLoop_flags s ho m hsm hout hm txids ops gap bs ks n _ t (known_start ks)
      (fun k i v h => by cases h) st u hl
    refine ⟨tip, T, t2, h4, fun k i hki => ?_⟩
    obtain ⟨hk, ha⟩ := (lastActiveIndices_get _ _ _ _).1 hki
    obtain ⟨⟨spk, hspk⟩, -⟩ := (lastActiveOf_eq _ _ _).1 ha
    obtain ⟨l0, e1, e2⟩ := h1.scanned k i _ hspk
    refine ⟨l0, spk, e1, e2, h3 k i _ hspk, fun hb hg => h5 hb hg ?_ k i _ hspk⟩
    intro e
    simp only at e
    rw [h2] at hk
    simp only [e] at hk
    cases hk
  all_goals (rw [hl] at hr; cases hr)

/-- **C50** with any server: a reported last active index is the index of a script of that keychain, and the server did
report a history for this script -/
theorem C50_last_active_real (s : Server) (ho : Order) (m : OMap Nat BlockHash)
    (ks : OMap K (List (Nat × Script))) (txids : List Txid) (ops : List OutPoint) (gap bs n t : Nat)
    (hsmall : ∀ t b, s.tip t = some b → b.height < u32Max) (hm : ∀ h x, m.get h = some x → h < u32Max)
    (hout : ∀ t x tx, s.tx t x = .ok tx → tx.output ≠ [])
    (r : ElectrumUpdate K TxHeight) (hr : scan s ho m ks txids ops gap bs n t = .ok r) (k : K) (i : Nat)
    (hki : r.lastActive.get k = some i) :
    ∃ l spk t' h, ks.get k = some l ∧ (i, spk) ∈ l ∧ s.history t' spk = some h ∧ h ≠ [] := by
  obtain ⟨tip, T, t2, -, h⟩ := scan_active s ho m ks txids ops gap bs n t hsmall hout hm r hr
  obtain ⟨l, spk, h1, h2, h3, -⟩ := h k i hki
  obtain ⟨t', h', -, h4, h5⟩ := h3 rfl
  exact ⟨l, spk, t', h', h1, h2, h4, h5⟩

/-- **C50** with any server, as long as the scripts given are no more than the stop gap: what is reported is current, even
if the scan had to start over: the server reported the history after it had named a block of the update as its tip -/
theorem C50_last_active_current (s : Server) (ho : Order) (m : OMap Nat BlockHash)
    (ks : OMap K (List (Nat × Script))) (txids : List Txid) (ops : List OutPoint) (gap bs n t : Nat)
    (hsmall : ∀ t b, s.tip t = some b → b.height < u32Max) (hm : ∀ h x, m.get h = some x → h < u32Max)
    (hout : ∀ t x tx, s.tx t x = .ok tx → tx.output ≠ [])
    (hbs : 0 < bs) (hgap : (ks.entries.map fun e => e.2.length).sum ≤ gap)
    (r : ElectrumUpdate K TxHeight) (hr : scan s ho m ks txids ops gap bs n t = .ok r) :
    ∃ T start, s.tip T = some start ∧ r.chainUpdate.checkpointAt start.height = some start ∧
      ∀ k i, r.lastActive.get k = some i →
        ∃ l spk t' h, ks.get k = some l ∧ (i, spk) ∈ l ∧ T < t' ∧ s.history t' spk = some h ∧ h ≠ [] := by
  obtain ⟨tip, T, t2, hf, h⟩ := scan_active s ho m ks txids ops gap bs n t hsmall hout hm r hr
  obtain ⟨start, hs1, hs2⟩ := hf.begin
  refine ⟨T, start, hs1, hs2, fun k i hki => ?_⟩
  obtain ⟨l, spk, h1, h2, -, h3⟩ := h k i hki
  obtain ⟨t', h', h4, h5, h6⟩ := h3 hbs hgap rfl
  exact ⟨l, spk, t', h', h1, h2, h4, h5, h6⟩

/-- a scan with two rounds; the world changes after three requests -/
example : ((exSpks.entries.map fun e => e.2.length).sum ≤ 7) ∧
    (match scan (twoWorlds exWorld exWorld'' 4) (HashOrder.id _) exLocal exSpks [] [⟨1, 0⟩] 7 2 3 0 with
      | .ok r => decide (r.lastActive.get 1 = some 2)
      | _ => false) = true := by decide +kernel

/-- **C50** with more scripts than the stop gap the reported index may be stale: two scripts had a
history in the first round only, and the second round stops at the first of them, so the second is never asked for again -/
theorem C50_last_active_stale :
    ¬ ∀ (s : Server) (m : OMap Nat BlockHash) (ks : OMap Nat (List (Nat × Script))) (gap n : Nat) (r : ElectrumUpdate Nat TxHeight),
      (∀ t b, s.tip t = some b → b.height < u32Max) → scan s (HashOrder.id _) m ks [] [] gap 1 n 0 = .ok r →
      ∃ T start, s.tip T = some start ∧ r.chainUpdate.checkpointAt start.height = some start ∧
        ∀ k i, r.lastActive.get k = some i →
          ∃ l spk t' h, ks.get k = some l ∧ (i, spk) ∈ l ∧ T < t' ∧ s.history t' spk = some h ∧ h ≠ [] := by
  intro h
  let w1 : World := ⟨⟨5, 105⟩, fun h => if h ≤ 5 then some (100 + h) else none, fun k => if k = 20 then [(1, 3)] else if k = 10 then [(2, 3)] else [], fun _ => none⟩
  let w2 : World := ⟨⟨5, 205⟩, fun h => if h ≤ 2 then some (100 + h) else if h ≤ 5 then some (200 + h) else none, fun _ => [], fun _ => none⟩
  let s := twoWorlds w1 w2 5
  let ks : OMap Nat (List (Nat × Script)) := OMap.ofList [(0, [(0, 10), (1, 20)])]
  have hrun : (match scan s (HashOrder.id _) exLocal ks [] [] 0 1 3 0 with
    | .ok r => decide (r.lastActive.get 0 = some 1 ∧ r.chainUpdate.checkpointAt 5 = some ⟨5, 205⟩)
    | _ => false) = true := by decide +kernel
  have htip : ∀ t b, s.tip t = some b → b = if t < 5 then ⟨5, 105⟩ else ⟨5, 205⟩ := by
    intro t b hb
    simp only [s, twoWorlds, Option.some.injEq] at hb
    by_cases e : t < 5
    · rw [if_pos e] at hb ⊢; exact hb.symm
    · rw [if_neg e] at hb ⊢; exact hb.symm
  cases hr : scan s (HashOrder.id _) exLocal ks [] [] 0 1 3 0 with
  | ok r =>
    rw [hr] at hrun
    obtain ⟨hr1, hr2⟩ := of_decide_eq_true hrun
    obtain ⟨T, start, h1, h2, h3⟩ := h s exLocal ks 0 3 r (by
      intro t b hb
      rw [htip t b hb]
      split <;> decide) hr
    obtain ⟨l, spk, t', hist, h4, h5, h6, h7, h8⟩ := h3 0 1 hr1
    have hT : 5 ≤ T := by
      by_contra hc
      have := htip T start h1
      rw [if_pos (by omega)] at this
      subst this
      rw [hr2] at h2
      exact absurd h2 (by decide)
    apply h8
    simp only [s, twoWorlds] at h7
    rw [if_neg (by omega)] at h7
    simpa [w2] using h7.symm
  | reorg => rw [hr] at hrun; cases hrun
  | error => rw [hr] at hrun; cases hrun
  | panic => rw [hr] at hrun; cases hrun
  | pending => rw [hr] at hrun; cases hrun

/-- in the example world with gap 1 script 21 (index 2 of keychain 1) is reached, the last script is not -/
example : Reached exWorld 1 [(0, 20), (1, 12), (2, 21), (3, 13), (4, 14)] 2 ∧
    ¬ Reached exWorld 0 [(0, 20), (1, 12), (2, 21), (3, 13), (4, 14)] 2 := by
  rw [reached_iff, reached_iff]; decide

/-- **C50** `batch_size` 0 scans nothing -/
theorem C50_batch_size_zero (s : Server) (ho : Order) (u : Update) (spks : List (Nat × Script)) (gap t : Nat) :
    populateWithSpks s ho u spks gap 0 t = ⟨u, OMap.empty, spks, .ok (), t⟩ := by
  unfold populateWithSpks
  simp [populateLoop]

/-- a successful scan whose update lacks the transaction -/
def MissesTx (o : Out (ElectrumUpdate Nat TxHeight)) (x : Txid) : Bool :=
  match o with
  | .ok r => decide (r.chainUpdate.txPosition x = none)
  | _ => false

theorem missesTx_spec {o : Out (ElectrumUpdate Nat TxHeight)} {x : Txid} (h : MissesTx o x = true) :
    ∃ r, o = .ok r ∧ r.chainUpdate.txPosition x = none := by
  cases o with
  | ok r => exact ⟨r, rfl, by simpa [MissesTx] using h⟩
  | reorg => cases h
  | error => cases h
  | panic => cases h
  | pending => cases h

/-- **C50** completeness is lost when a block is replaced during the scan: the second round rescans the scripts of all
keychains with one stop-gap counter, so the unused scripts at the end of one keychain hide the next keychain.  Both worlds
list transaction 1 for the first script of keychain 1; the scan succeeds without it. -/
theorem C50_reorg_loses_next_keychain :
    ¬ ∀ (w1 w2 : World) (k gap : Nat) (m : OMap Nat BlockHash) (ks : OMap Nat (List (Nat × Script))) (n : Nat)
      (r : ElectrumUpdate Nat TxHeight) (x : Txid) (raw raw' : Int), w1.Sound → w2.Sound →
      scan (twoWorlds w1 w2 k) (HashOrder.id _) m ks [] [] gap 1 n 0 = .ok r →
      FoundByScript w1 gap ks x raw → FoundByScript w2 gap ks x raw' → r.chainUpdate.txPosition x ≠ none := by
  intro h
  let ks : OMap Nat (List (Nat × Script)) := OMap.ofList [(0, [(0, 10)]), (1, [(0, 20)])]
  obtain ⟨r, h1, h2⟩ := missesTx_spec (x := 1)
    (o := scan (twoWorlds exWorld exWorld' 3) (HashOrder.id _) exLocal ks [] [] 0 1 2 0) (by decide +kernel)
  have hf : ∀ w : World, (1, 3) ∈ w.history 20 → FoundByScript w 0 ks 1 3 := fun w hw =>
    ⟨1, [(0, 20)], 0, (0, 20), rfl, ⟨by decide, by rintro ⟨i, hi, -⟩; omega⟩, rfl, hw⟩
  exact h exWorld exWorld' 3 0 exLocal ks 2 r 1 3 3 sound_exWorld sound_exWorld' h1 (hf _ (by decide)) (hf _ (by decide)) h2

/-- **C50** completeness is lost, too, when the reorg is noticed in the middle of a keychain (a transaction is reported at
two heights): the scripts already taken from the iterator are not scanned again.  The stop gap plays no role. -/
theorem C50_reorg_loses_interrupted_keychain :
    ¬ ∀ (w1 w2 : World) (k gap : Nat) (m : OMap Nat BlockHash) (ks : OMap Nat (List (Nat × Script))) (n : Nat)
      (r : ElectrumUpdate Nat TxHeight) (x : Txid) (raw raw' : Int), w1.Sound → w2.Sound → ks.size ≤ 1 → 100 ≤ gap →
      scan (twoWorlds w1 w2 k) (HashOrder.id _) m ks [] [] gap 1 n 0 = .ok r →
      FoundByScript w1 gap ks x raw → FoundByScript w2 gap ks x raw' → r.chainUpdate.txPosition x ≠ none := by
  intro h
  let ks : OMap Nat (List (Nat × Script)) := OMap.ofList [(0, [(0, 20), (1, 20)])]
  obtain ⟨r, h1, h2⟩ := missesTx_spec (x := 1)
    (o := scan (twoWorlds exWorld exWorld'' 4) (HashOrder.id _) exLocal ks [] [] 100 1 3 0) (by decide +kernel)
  have hf : ∀ (w : World) raw, (1, raw) ∈ w.history 20 → FoundByScript w 100 ks 1 raw := fun w raw hw =>
    ⟨0, [(0, 20), (1, 20)], 0, (0, 20), rfl, ⟨by decide, by rintro ⟨i, hi, -⟩; omega⟩, rfl, hw⟩
  exact h exWorld exWorld'' 4 100 exLocal ks 3 r 1 3 4 sound_exWorld sound_exWorld'' (by decide) (by omega) h1
    (hf _ _ (by decide)) (hf _ _ (by decide)) h2

end Verif.Electrum
