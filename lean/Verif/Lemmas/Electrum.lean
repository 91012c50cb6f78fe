import Verif.Spec.Electrum
import Verif.Props.SparseChain

/-! # Lemmas about the electrum scan: invariants valid for every server -/

namespace Verif.Electrum
open Verif Spec SparseChain Verif.Props

theorem checkpointAt_height {P : Type} [LinearOrder P] {c : SparseChain P} {h : Nat} {b : BlockId}
    (hb : c.checkpointAt h = some b) : b.height = h := by
  unfold checkpointAt at hb
  rw [Option.map_eq_some_iff] at hb
  obtain ⟨x, -, rfl⟩ := hb
  rfl

theorem latestCheckpoint_eq {P : Type} [LinearOrder P] [ChainPosition P] {c : SparseChain P} {b : BlockId} :
    c.latestCheckpoint = some b ↔ IsTip c b.height ∧ c.checkpointAt b.height = some b := by
  rw [← lastUpdateCp_some]
  unfold latestCheckpoint lastUpdateCp checkpointAt
  cases h : c.checkpoints.last? with
  | none => simp
  | some e =>
    have := (OMap.last?_eq_some (k := e.1) (v := e.2)).1 h
    simp only [Option.map_some, Option.some.injEq]
    constructor
    · rintro rfl
      exact ⟨rfl, by rw [this.1]; rfl⟩
    · rintro ⟨h1, h2⟩
      rw [← h1, this.1] at h2
      simp only [Option.map_some, Option.some.injEq] at h2
      rw [← h2, h1]

/-- invariant of an update under construction with checkpoints `cps` and tip height `tip` -/
structure Upd {P : Type} [LinearOrder P] [ChainPosition P] (u : SparseChain P) (cps : Nat → Option BlockId) (tip : Nat) :
    Prop where
  heights : HeightsOk u
  pos : PositionsAgree u
  lim : u.checkpointLimit = none
  cp : ∀ k, u.checkpointAt k = cps k
  isTip : IsTip u tip
  below : ∀ x p h, u.txPosition x = some p → ChainPosition.height p = .confirmed h → h ≤ tip

section
variable {P : Type} [LinearOrder P] [ChainPosition P] [LawfulChainPosition P]

theorem Upd.latest {u : SparseChain P} {cps : Nat → Option BlockId} {tip : Nat} (h : Upd u cps tip) :
    ∃ b, u.latestCheckpoint = some b ∧ b.height = tip ∧ cps tip = some b := by
  obtain ⟨b, hb⟩ := h.isTip.1
  have e := checkpointAt_height hb
  exact ⟨b, latestCheckpoint_eq.2 ⟨by rw [e]; exact h.isTip, by rw [e]; exact hb⟩, e, by rw [← h.cp]; exact hb⟩

theorem Upd.tip_small {u : SparseChain P} {cps : Nat → Option BlockId} {tip : Nat} (h : Upd u cps tip) : tip < u32Max :=
  h.heights.1 _ h.isTip.1

theorem insertTx_lim (u : SparseChain P) (x : Txid) (p : P) (ho : HashOrder (Txid × P)) :
    (u.insertTx x p ho).1.checkpointLimit = u.checkpointLimit := by
  unfold insertTx applyOk
  cases u.insertTxPreview x p ho with
  | ok cs => exact applyChangeset_limit _ _
  | err e => rfl
  | panic => rfl

theorem insertTx_pos (u : SparseChain P) (x : Txid) (p : P) (ho : HashOrder (Txid × P)) (h : PositionsAgree u) :
    PositionsAgree (u.insertTx x p ho).1 :=
  positionsAgree_of_consistent (step_consistent u (.insertTx x p ho) (consistent_of_positionsAgree h))

theorem insertTx_fail (u : SparseChain P) (x : Txid) (p : P) (ho : HashOrder (Txid × P))
    (h : ∀ cs, (u.insertTx x p ho).2 ≠ .ok cs) : (u.insertTx x p ho).1 = u := by
  unfold insertTx applyOk at *
  cases hp : u.insertTxPreview x p ho with
  | ok cs => rw [hp] at h; exact absurd rfl (h cs)
  | err e => rfl
  | panic => rfl

/-- inserting a transaction not above the tip: it works, or it is confirmed elsewhere and nothing changes -/
theorem insertTx_cases {u : SparseChain P} {cps : Nat → Option BlockId} {tip : Nat} (hu : Upd u cps tip) (x : Txid) (p : P)
    (ho : HashOrder (Txid × P)) (hp : ∀ h, ChainPosition.height p = .confirmed h → h ≤ tip) :
    Upd (u.insertTx x p ho).1 cps tip ∧
    ((∃ cs, (u.insertTx x p ho).2 = .ok cs ∧
        ∀ y, (u.insertTx x p ho).1.txPosition y = if y = x then some p else u.txPosition y) ∨
      (∃ a b c, (u.insertTx x p ho).2 = .err (.txMovedUnexpectedly a b c) ∧ (u.insertTx x p ho).1 = u ∧
        ConfirmedElsewhere u x p)) := by
  have hnt : ¬ TooHigh u p := by
    rintro ⟨h, hh, h2⟩
    have := hp h hh
    have := h2 tip hu.isTip
    omega
  have hlim : Limited u := by intro n hn; rw [hu.lim] at hn; cases hn
  cases hr : (u.insertTx x p ho).2 with
  | panic => exact absurd hr (C12_insert_tx_no_panic u hu.heights hu.pos x p ho)
  | ok cs =>
    obtain ⟨h1, h2, h3⟩ := C12_insert_tx_effect u hu.heights hu.pos hlim x p ho cs hr
    have hx : ∀ y, (u.insertTx x p ho).1.txPosition y = if y = x then some p else u.txPosition y := by
      intro y
      by_cases e : y = x
      · rw [if_pos e, e]; exact h1
      · rw [if_neg e]; exact h2 y e
    have hcp : ∀ h, HasCp (u.insertTx x p ho).1 h ↔ HasCp u h := by
      intro h; unfold HasCp; rw [h3]
    have hb : ∀ y q h, (u.insertTx x p ho).1.txPosition y = some q → ChainPosition.height q = .confirmed h → h ≤ tip := by
      intro y q h hy hq
      rw [hx] at hy
      by_cases e : y = x
      · rw [if_pos e] at hy; cases hy; exact hp h hq
      · rw [if_neg e] at hy; exact hu.below y q h hy hq
    refine ⟨⟨⟨?_, ?_⟩, insertTx_pos u x p ho hu.pos, by rw [insertTx_lim]; exact hu.lim, ?_, ?_, hb⟩, .inl ⟨cs, rfl, hx⟩⟩
    · intro h hh; exact hu.heights.1 h ((hcp h).1 hh)
    · intro y q h hy hq
      have := hb y q h hy hq
      have := hu.tip_small
      omega
    · intro k; rw [h3]; exact hu.cp k
    · exact ⟨(hcp _).2 hu.isTip.1, fun h' hh => hu.isTip.2 h' ((hcp _).1 hh)⟩
  | err e =>
    have hs := insertTx_fail u x p ho (by rw [hr]; intro cs h; cases h)
    cases e with
    | txTooHigh a b c =>
      exact absurd ((C12_too_high_iff u hu.heights hu.pos x p ho).1 ⟨a, b, c, hr⟩) hnt
    | txMovedUnexpectedly a b c =>
      have := ((C12_moved_iff u hu.heights hu.pos x p ho).1 ⟨a, b, c, hr⟩).2
      exact ⟨by rw [hs]; exact hu, .inr ⟨a, b, c, rfl, hs, this⟩⟩

end

theorem determine_le (raw : Int) (tip : Nat) (x : Txid) (h : Nat) (e : determineTxHeight raw tip x = .confirmed h) :
    h ≤ tip := by
  unfold determineTxHeight at e
  split at e
  · cases e; exact Nat.zero_le _
  · split at e
    · cases e
    · split at e
      · cases e
      · cases e; omega

/-- `putTx` at a height not above the tip -/
theorem putTx_cases {u : Update} {cps : Nat → Option BlockId} {tip : Nat} (hu : Upd u cps tip) (ho : Order) (x : Txid)
    (p : TxHeight) (hp : ∀ h, p = .confirmed h → h ≤ tip) :
    Upd (putTx ho u x p).1 cps tip ∧
    (((putTx ho u x p).2 = .ok () ∧ ∀ y, (putTx ho u x p).1.txPosition y = if y = x then some p else u.txPosition y) ∨
      ((putTx ho u x p).2 = .reorg ∧ (putTx ho u x p).1 = u ∧ ConfirmedElsewhere u x p)) := by
  obtain ⟨h1, h2⟩ := insertTx_cases hu x p ho hp
  unfold putTx
  rcases hi : u.insertTx x p ho with ⟨u', r⟩
  rw [hi] at h1 h2
  rcases h2 with ⟨cs, hr, hx⟩ | ⟨a, b, c, hr, hs, he⟩
  · simp only at hr; subst hr
    exact ⟨h1, .inl ⟨rfl, hx⟩⟩
  · simp only at hr; subst hr
    exact ⟨h1, .inr ⟨rfl, hs, he⟩⟩

/-- property of the positions of an update -/
def AllPos (R : Txid → TxHeight → Prop) (u : Update) : Prop := ∀ x p, u.txPosition x = some p → R x p

/-- what every stage keeps, whatever the server says, from the time it starts to the time it ends: the invariant, the
checkpoints, a property of positions `R t` that the entries of all answers given before `t` satisfy; and it does not panic -/
structure Keeps (cps : Nat → Option BlockId) (tip : Nat) (R : Nat → Txid → TxHeight → Prop) (t : Nat) (u : Update) (o : Out Unit)
    (t' : Nat) : Prop where
  upd : Upd u cps tip
  pos : AllPos (R t') u
  time : t ≤ t'
  noPanic : o ≠ .panic
  done : o ≠ .pending

/-- the same without an outcome -/
theorem Keeps.rfl' {cps : Nat → Option BlockId} {tip : Nat} {R : Nat → Txid → TxHeight → Prop} {t : Nat} {u : Update} {o : Out Unit}
    (hu : Upd u cps tip) (hR : AllPos (R t) u) (h1 : o ≠ .panic) (h2 : o ≠ .pending) : Keeps cps tip R t u o t :=
  ⟨hu, hR, le_refl _, h1, h2⟩

theorem Keeps.since {cps : Nat → Option BlockId} {tip : Nat} {R : Nat → Txid → TxHeight → Prop} {t0 t t' : Nat} {u : Update}
    {o : Out Unit} (h : Keeps cps tip R t u o t') (h0 : t0 ≤ t) : Keeps cps tip R t0 u o t' :=
  ⟨h.upd, h.pos, le_trans h0 h.time, h.noPanic, h.done⟩

/-- `R` holds of all entries of all histories the server reports from time `t0` on, from then on -/
structure FromHistories (s : Server) (tip t0 : Nat) (R : Nat → Txid → TxHeight → Prop) : Prop where
  mono : ∀ t t' x p, t ≤ t' → R t x p → R t' x p
  hist : ∀ t, t0 ≤ t → ∀ k l x raw, s.history t k = some l → (x, raw) ∈ l → R (t + 1) x (determineTxHeight raw tip x)

theorem FromHistories.allPos {s : Server} {tip t0 : Nat} {R : Nat → Txid → TxHeight → Prop} (h : FromHistories s tip t0 R) {t t' : Nat}
    {u : Update} (ht : t ≤ t') (hR : AllPos (R t) u) : AllPos (R t') u := fun x p hx => h.mono _ _ _ _ ht (hR x p hx)

theorem putTx_keeps {u : Update} {cps : Nat → Option BlockId} {tip : Nat} {R : Txid → TxHeight → Prop} (hu : Upd u cps tip)
    (hR : AllPos R u) (ho : Order) (x : Txid) (raw : Int) (hx : R x (determineTxHeight raw tip x)) :
    Upd (putTx ho u x (determineTxHeight raw tip x)).1 cps tip ∧ AllPos R (putTx ho u x (determineTxHeight raw tip x)).1 ∧
      (putTx ho u x (determineTxHeight raw tip x)).2 ≠ .panic ∧ (putTx ho u x (determineTxHeight raw tip x)).2 ≠ .pending := by
  obtain ⟨h1, h2⟩ := putTx_cases hu ho x _ (fun h e => determine_le raw tip x h e)
  rcases h2 with ⟨h2, h3⟩ | ⟨h2, h3, -⟩
  · refine ⟨h1, ?_, by rw [h2]; simp, by rw [h2]; simp⟩
    intro y p hy
    rw [h3] at hy
    by_cases e : y = x
    · rw [if_pos e] at hy; cases hy; rw [e]; exact hx
    · rw [if_neg e] at hy; exact hR y p hy
  · exact ⟨h1, by rw [h3]; exact hR, by rw [h2]; simp, by rw [h2]; simp⟩

theorem putHistory_keeps {cps : Nat → Option BlockId} {tip : Nat} {R : Txid → TxHeight → Prop} (ho : Order) :
    ∀ (l : List (Txid × Int)) (u : Update), Upd u cps tip → AllPos R u →
    (∀ x raw, (x, raw) ∈ l → R x (determineTxHeight raw tip x)) →
    Upd (putHistory ho tip l u).1 cps tip ∧ AllPos R (putHistory ho tip l u).1 ∧ (putHistory ho tip l u).2 ≠ .panic ∧
      (putHistory ho tip l u).2 ≠ .pending
  | [], u, hu, hR, _ => ⟨hu, hR, by simp [putHistory], by simp [putHistory]⟩
  | (x, raw) :: l, u, hu, hR, hl => by
    have hk := putTx_keeps hu hR ho x raw (hl x raw List.mem_cons_self)
    simp only [putHistory]
    rcases hp : putTx ho u x (determineTxHeight raw tip x) with ⟨u', o⟩
    rw [hp] at hk
    cases o with
    | ok a => exact putHistory_keeps ho l u' hk.1 hk.2.1 (fun x r h => hl x r (List.mem_cons_of_mem _ h))
    | reorg => exact hk
    | error => exact hk
    | panic => exact hk
    | pending => exact hk

variable {I : Type} [LinearOrder I]

theorem spkLoop_keeps {cps : Nat → Option BlockId} {tip : Nat} {R : Txid → TxHeight → Prop} (ho : Order) (gap : Nat) :
    ∀ (l : List ((I × Script) × List (Txid × Int))) (st : SpkState I), Upd st.update cps tip → AllPos R st.update →
    (∀ e ∈ l, ∀ x raw, (x, raw) ∈ e.2 → R x (determineTxHeight raw tip x)) →
    Upd (spkLoop ho tip gap l st).1.update cps tip ∧ AllPos R (spkLoop ho tip gap l st).1.update ∧
      (spkLoop ho tip gap l st).2 ≠ .panic ∧ (spkLoop ho tip gap l st).2 ≠ .pending
  | [], st, hu, hR, _ => ⟨hu, hR, by simp [spkLoop], by simp [spkLoop]⟩
  | ((i, spk), []) :: l, st, hu, hR, hl => by
    simp only [spkLoop]
    by_cases h : gap < st.unused + 1
    · rw [if_pos h]; exact ⟨hu, hR, by simp, by simp⟩
    · rw [if_neg h]
      exact spkLoop_keeps ho gap l ⟨st.update, st.scanned.insert i (spk, false), st.unused + 1⟩ hu hR
        (fun e he => hl e (List.mem_cons_of_mem _ he))
  | ((i, spk), a :: as) :: l, st, hu, hR, hl => by
    have hk := putHistory_keeps ho (a :: as) st.update hu hR (hl _ List.mem_cons_self)
    simp only [spkLoop]
    rcases hp : putHistory ho tip (a :: as) st.update with ⟨u', o⟩
    rw [hp] at hk
    cases o with
    | ok a =>
      exact spkLoop_keeps ho gap l ⟨u', st.scanned.insert i (spk, true), 0⟩ hk.1 hk.2.1
        (fun e he => hl e (List.mem_cons_of_mem _ he))
    | reorg => exact ⟨hk.1, hk.2.1, by simp, by simp⟩
    | error => exact ⟨hk.1, hk.2.1, by simp, by simp⟩
    | panic => exact absurd rfl hk.2.2.1
    | pending => exact absurd rfl hk.2.2.2

theorem mem_mapM_some {α β : Type} {f : α → Option β} : ∀ {l : List α} {r : List β}, l.mapM f = some r →
    ∀ b ∈ r, ∃ a ∈ l, f a = some b
  | [], r, h, b, hb => by simp at h; subst h; cases hb
  | a :: l, r, h, b, hb => by
    rw [List.mapM_cons] at h
    cases h1 : f a with
    | none => rw [h1] at h; cases h
    | some y =>
      cases h2 : l.mapM f with
      | none => rw [h1, h2] at h; cases h
      | some ys =>
        rw [h1, h2] at h
        have : y :: ys = r := by simpa using h
        subst this
        rcases List.mem_cons.1 hb with rfl | hb
        · exact ⟨a, List.mem_cons_self, h1⟩
        · obtain ⟨a', h3, h4⟩ := mem_mapM_some h2 b hb
          exact ⟨a', List.mem_cons_of_mem _ h3, h4⟩

theorem populateLoop_keeps {cps : Nat → Option BlockId} {tip t0 : Nat} {R : Nat → Txid → TxHeight → Prop} (s : Server) (ho : Order)
    (gap bs : Nat) (hs : FromHistories s tip t0 R) :
    ∀ (n : Nat) (spks : List (I × Script)) (st : SpkState I) (t : Nat), t0 ≤ t → Upd st.update cps tip → AllPos (R t) st.update →
    Keeps cps tip R t (populateLoop s ho tip gap bs n spks st t).update (populateLoop s ho tip gap bs n spks st t).out
      (populateLoop s ho tip gap bs n spks st t).time
  | 0, spks, st, t, _, hu, hR => .rfl' hu hR (by simp [populateLoop]) (by simp [populateLoop])
  | n + 1, spks, st, t, ht, hu, hR => by
    have hR1 := hs.allPos (Nat.le_succ t) hR
    simp only [populateLoop]
    by_cases he : (spks.take bs).isEmpty = true
    · rw [if_pos he]; exact .rfl' hu hR (by simp) (by simp)
    · rw [if_neg he]
      cases hm : (spks.take bs).mapM (fun e => s.history t e.2) with
      | none => exact ⟨hu, hR1, Nat.le_succ t, by simp, by simp⟩
      | some hists =>
        have hk := spkLoop_keeps (R := R (t + 1)) ho gap ((spks.take bs).zip hists) st hu hR1 (by
          rintro ⟨e, hist⟩ he x raw hx
          obtain ⟨a, -, h2⟩ := mem_mapM_some hm hist (List.of_mem_zip he).2
          exact hs.hist t ht a.2 hist x raw h2 hx)
        simp only
        rcases hp : spkLoop ho tip gap ((spks.take bs).zip hists) st with ⟨st', o⟩
        rw [hp] at hk
        cases o with
        | ok b =>
          cases b with
          | true => exact ⟨hk.1, hk.2.1, Nat.le_succ t, by simp, by simp⟩
          | false =>
            exact (populateLoop_keeps s ho gap bs hs n _ st' (t + 1) (by omega) hk.1 hk.2.1).since (Nat.le_succ t)
        | reorg => exact ⟨hk.1, hk.2.1, Nat.le_succ t, by simp, by simp⟩
        | error => exact ⟨hk.1, hk.2.1, Nat.le_succ t, by simp, by simp⟩
        | panic => exact absurd rfl hk.2.2.1
        | pending => exact absurd rfl hk.2.2.2

theorem populateWithSpks_eq {u : Update} {cps : Nat → Option BlockId} {tip : Nat} (hu : Upd u cps tip) (s : Server) (ho : Order)
    (spks : List (I × Script)) (gap bs t : Nat) :
    populateWithSpks s ho u spks gap bs t = populateLoop s ho tip gap bs (spks.length + 1) spks ⟨u, OMap.empty, 0⟩ t := by
  obtain ⟨b, hb, rfl, -⟩ := hu.latest
  unfold populateWithSpks
  rw [hb]

theorem populateWithSpks_keeps {u : Update} {cps : Nat → Option BlockId} {tip t0 : Nat} {R : Nat → Txid → TxHeight → Prop}
    (s : Server) (ho : Order) (spks : List (I × Script)) (gap bs t : Nat)
    (hs : FromHistories s tip t0 R) (ht : t0 ≤ t) (hu : Upd u cps tip) (hR : AllPos (R t) u) :
    Keeps cps tip R t (populateWithSpks s ho u spks gap bs t).update (populateWithSpks s ho u spks gap bs t).out
      (populateWithSpks s ho u spks gap bs t).time := by
  rw [populateWithSpks_eq hu]
  exact populateLoop_keeps s ho gap bs hs _ _ _ _ ht hu hR

/-- transactions have at least one output -/
def HasOutputs (s : Server) : Prop := ∀ t x tx, s.tx t x = .ok tx → tx.output ≠ []

theorem txidLoop_keeps {cps : Nat → Option BlockId} {tip t0 : Nat} {R : Nat → Txid → TxHeight → Prop} (s : Server) (ho : Order)
    (hs : FromHistories s tip t0 R) (hout : HasOutputs s) :
    ∀ (l : List Txid) (u : Update) (t : Nat), t0 ≤ t → Upd u cps tip → AllPos (R t) u →
    Keeps cps tip R t (txidLoop s ho tip l u t).1.1 (txidLoop s ho tip l u t).1.2 (txidLoop s ho tip l u t).2
  | [], u, t, _, hu, hR => .rfl' hu hR (by simp [txidLoop]) (by simp [txidLoop])
  | x :: l, u, t, ht0, hu, hR => by
    have l1 := Nat.le_succ t
    have l2 : t ≤ t + 2 := by omega
    have hR1 := hs.allPos l1 hR
    have hR2 := hs.allPos l2 hR
    simp only [txidLoop]
    cases ht : s.tx t x with
    | protocolErr => exact (txidLoop_keeps s ho hs hout l u (t + 1) (by omega) hu hR1).since l1
    | otherErr => exact ⟨hu, hR1, l1, by simp, by simp⟩
    | ok tx =>
      simp only
      cases hh : tx.output.head? with
      | none => exact absurd (List.head?_eq_none_iff.1 hh) (hout t x tx ht)
      | some txo =>
        simp only
        cases hist : s.history (t + 1) txo.spk with
        | none => exact ⟨hu, hR2, l2, by simp, by simp⟩
        | some hl =>
          simp only
          cases hf : hl.find? (fun r => decide (r.1 = x)) with
          | none => exact (txidLoop_keeps s ho hs hout l u (t + 2) (by omega) hu hR2).since l2
          | some r =>
            have hr1 : r.1 = x := by simpa using List.find?_some hf
            have hk := putTx_keeps (R := R (t + 2)) hu hR2 ho x r.2
              (hr1 ▸ hs.hist (t + 1) (by omega) txo.spk hl r.1 r.2 hist (List.mem_of_find?_eq_some hf))
            simp only [hr1]
            rcases hp : putTx ho u x (determineTxHeight r.2 tip x) with ⟨u', o⟩
            rw [hp] at hk
            cases o with
            | ok a => exact (txidLoop_keeps s ho hs hout l u' (t + 2) (by omega) hk.1 hk.2.1).since l2
            | reorg => exact ⟨hk.1, hk.2.1, l2, hk.2.2.1, hk.2.2.2⟩
            | error => exact ⟨hk.1, hk.2.1, l2, hk.2.2.1, hk.2.2.2⟩
            | panic => exact ⟨hk.1, hk.2.1, l2, hk.2.2.1, hk.2.2.2⟩
            | pending => exact ⟨hk.1, hk.2.1, l2, hk.2.2.1, hk.2.2.2⟩

theorem populateWithTxids_keeps {u : Update} {cps : Nat → Option BlockId} {tip t0 : Nat} {R : Nat → Txid → TxHeight → Prop}
    (s : Server) (ho : Order) (l : List Txid) (t : Nat) (hs : FromHistories s tip t0 R) (hout : HasOutputs s)
    (ht : t0 ≤ t) (hu : Upd u cps tip) (hR : AllPos (R t) u) :
    Keeps cps tip R t (populateWithTxids s ho u l t).1.1 (populateWithTxids s ho u l t).1.2 (populateWithTxids s ho u l t).2 := by
  obtain ⟨b, hb, rfl, -⟩ := hu.latest
  unfold populateWithTxids
  rw [hb]
  exact txidLoop_keeps s ho hs hout l u t ht hu hR

theorem opTx_update (s : Server) (st : OpState) (x : Txid) : (opTx s st x).1.update = st.update := by
  unfold opTx
  cases st.full.get x with
  | some tx => rfl
  | none => cases s.tx st.time x <;> rfl

theorem opTx_time (s : Server) (st : OpState) (x : Txid) : st.time ≤ (opTx s st x).1.time := by
  unfold opTx
  cases st.full.get x with
  | some tx => exact le_refl _
  | none => cases s.tx st.time x <;> exact Nat.le_succ _

theorem opPut_eq (ho : Order) (tip : Nat) (st : OpState) (r : Txid × Int) :
    opPut ho tip st r = ({ st with update := (putTx ho st.update r.1 (determineTxHeight r.2 tip r.1)).1 },
      (putTx ho st.update r.1 (determineTxHeight r.2 tip r.1)).2) := by
  unfold opPut
  rcases putTx ho st.update r.1 (determineTxHeight r.2 tip r.1) with ⟨u, o⟩
  rfl

theorem opLoop_keeps {cps : Nat → Option BlockId} {tip t0 t1 : Nat} {R : Nat → Txid → TxHeight → Prop} (s : Server) (ho : Order)
    (hs : FromHistories s tip t0 R) (op : OutPoint) (tx : Tx) :
    ∀ (l : List (Txid × Int)) (st : OpState), t1 ≤ st.time → Upd st.update cps tip → AllPos (R st.time) st.update →
    (∀ x raw, (x, raw) ∈ l → R t1 x (determineTxHeight raw tip x)) →
    Keeps cps tip R st.time (opLoop s ho tip op tx l st).1.update (opLoop s ho tip op tx l st).2 (opLoop s ho tip op tx l st).1.time
  | [], st, _, hu, hR, _ => .rfl' hu hR (by simp [opLoop]) (by simp [opLoop])
  | r :: l, st, ht, hu, hR, hl => by
    have hl' := fun x raw h => hl x raw (List.mem_cons_of_mem _ h)
    have fin : ∀ st' : OpState, st'.update = st.update → st.time ≤ st'.time →
        Keeps cps tip R st.time (match opPut ho tip st' r with
          | (st'', .ok _) => opLoop s ho tip op tx l st''
          | q => q).1.update (match opPut ho tip st' r with
          | (st'', .ok _) => opLoop s ho tip op tx l st''
          | q => q).2 (match opPut ho tip st' r with
          | (st'', .ok _) => opLoop s ho tip op tx l st''
          | q => q).1.time := by
      intro st' he het
      have hr := hs.mono _ _ _ _ (le_trans ht het) (hl r.1 r.2 List.mem_cons_self)
      have hk := putTx_keeps hu (hs.allPos het hR) ho r.1 r.2 hr
      rw [opPut_eq, he]
      rcases hp : putTx ho st.update r.1 (determineTxHeight r.2 tip r.1) with ⟨u', o⟩
      rw [hp] at hk
      have kk : Keeps cps tip R st.time u' o st'.time := ⟨hk.1, hk.2.1, het, hk.2.2.1, hk.2.2.2⟩
      cases o with
      | ok a =>
        have ih := opLoop_keeps s ho hs op tx l { st' with update := u' } (le_trans ht het) hk.1 hk.2.1 hl'
        exact ih.since het
      | reorg => exact kk
      | error => exact kk
      | panic => exact kk
      | pending => exact kk
    simp only [opLoop]
    by_cases h1 : (st.residing && st.spending) = true
    · rw [if_pos h1]; exact .rfl' hu hR (by simp) (by simp)
    · rw [if_neg h1]
      by_cases h2 : r.1 = op.txid
      · rw [if_pos h2]
        by_cases h3 : st.residing = true
        · rw [if_pos h3]; exact opLoop_keeps s ho hs op tx l st ht hu hR hl'
        · rw [if_neg h3]; exact fin _ rfl (le_refl _)
      · rw [if_neg h2]
        by_cases h4 : st.spending = true
        · rw [if_pos h4]; exact opLoop_keeps s ho hs op tx l st ht hu hR hl'
        · rw [if_neg h4]
          have hop := opTx_update s st r.1
          have hot := opTx_time s st r.1
          rcases ho' : opTx s st r.1 with ⟨st', o⟩
          rw [ho'] at hop hot
          cases o with
          | none =>
            simp only at hop hot ⊢
            exact ⟨hop ▸ hu, hop ▸ hs.allPos hot hR, hot, by simp, by simp⟩
          | some resTx =>
            simp only at hop hot ⊢
            by_cases h5 : decide (op ∈ resTx.input) = true
            · rw [if_pos h5]; exact fin _ hop hot
            · rw [if_neg h5]
              exact (opLoop_keeps s ho hs op tx l st' (le_trans ht hot) (hop ▸ hu) (hop ▸ hs.allPos hot hR) hl').since hot

theorem outpointLoop_keeps {cps : Nat → Option BlockId} {tip t0 : Nat} {R : Nat → Txid → TxHeight → Prop} (s : Server) (ho : Order)
    (hs : FromHistories s tip t0 R) :
    ∀ (l : List OutPoint) (u : Update) (full : OMap Txid Tx) (t : Nat), t0 ≤ t → Upd u cps tip → AllPos (R t) u →
    Keeps cps tip R t (outpointLoop s ho tip l u full t).1.1 (outpointLoop s ho tip l u full t).1.2
      (outpointLoop s ho tip l u full t).2
  | [], u, full, t, _, hu, hR => .rfl' hu hR (by simp [outpointLoop]) (by simp [outpointLoop])
  | op :: l, u, full, t, ht0, hu, hR => by
    have l1 := Nat.le_succ t
    have l2 : t ≤ t + 2 := by omega
    have hR1 := hs.allPos l1 hR
    have hR2 := hs.allPos l2 hR
    simp only [outpointLoop]
    cases ht : s.tx t op.txid with
    | protocolErr => exact ⟨hu, hR1, l1, by simp, by simp⟩
    | otherErr => exact ⟨hu, hR1, l1, by simp, by simp⟩
    | ok tx =>
      simp only
      cases hh : tx.output[op.vout.val]? with
      | none => exact (outpointLoop_keeps s ho hs l u full (t + 1) (by omega) hu hR1).since l1
      | some txo =>
        simp only
        cases hist : s.history (t + 1) txo.spk with
        | none => exact ⟨hu, hR2, l2, by simp, by simp⟩
        | some hl =>
          have hk := opLoop_keeps (t1 := t + 2) s ho hs op tx hl ⟨u, full, false, false, t + 2⟩ (le_refl _) hu hR2
            (fun x raw h => hs.hist (t + 1) (by omega) _ _ x raw hist h)
          simp only at hk ⊢
          rcases hp : opLoop s ho tip op tx hl ⟨u, full, false, false, t + 2⟩ with ⟨st, o⟩
          rw [hp] at hk
          simp only at hk
          cases o with
          | ok a =>
            exact (outpointLoop_keeps s ho hs l _ _ _ (le_trans (by omega) hk.time) hk.upd hk.pos).since (le_trans l2 hk.time)
          | reorg => exact hk.since l2
          | error => exact hk.since l2
          | panic => exact hk.since l2
          | pending => exact hk.since l2

theorem populateWithOutpoints_keeps {u : Update} {cps : Nat → Option BlockId} {tip t0 : Nat} {R : Nat → Txid → TxHeight → Prop}
    (s : Server) (ho : Order) (l : List OutPoint) (t : Nat) (hs : FromHistories s tip t0 R)
    (ht : t0 ≤ t) (hu : Upd u cps tip) (hR : AllPos (R t) u) :
    Keeps cps tip R t (populateWithOutpoints s ho u l t).1.1 (populateWithOutpoints s ho u l t).1.2
      (populateWithOutpoints s ho u l t).2 := by
  obtain ⟨b, hb, rfl, -⟩ := hu.latest
  unfold populateWithOutpoints
  rw [hb]
  exact outpointLoop_keeps s ho hs l u _ t ht hu hR

variable {K : Type} [LinearOrder K]

theorem keychainLoop_keeps {cps : Nat → Option BlockId} {tip t0 : Nat} {R : Nat → Txid → TxHeight → Prop} (s : Server) (ho : Order)
    (gap bs : Nat) (hs : FromHistories s tip t0 R) :
    ∀ (l : List (K × List (Nat × Script))) (u : Update) (sc : OMap (K ×ₗ Nat) (Script × Bool)) (t : Nat), t0 ≤ t →
    Upd u cps tip → AllPos (R t) u →
    Keeps cps tip R t (keychainLoop s ho gap bs l u sc t).1.2 (keychainLoop s ho gap bs l u sc t).2.1
      (keychainLoop s ho gap bs l u sc t).2.2
  | [], u, sc, t, _, hu, hR => .rfl' hu hR (by simp [keychainLoop]) (by simp [keychainLoop])
  | (k, spks) :: l, u, sc, t, ht, hu, hR => by
    have hk := populateWithSpks_keeps s ho spks gap bs t hs ht hu hR
    simp only [keychainLoop]
    generalize populateWithSpks s ho u spks gap bs t = r at hk ⊢
    have ht' := le_trans ht hk.time
    cases ho' : r.out with
    | ok a => exact (keychainLoop_keeps s ho gap bs hs l _ _ _ ht' hk.upd hk.pos).since hk.time
    | reorg => exact (keychainLoop_keeps s ho gap bs hs l _ _ _ ht' hk.upd hk.pos).since hk.time
    | error => exact ⟨hk.upd, hk.pos, hk.time, by simp, by simp⟩
    | panic => exact absurd ho' hk.noPanic
    | pending => exact absurd ho' hk.done

theorem rescan_keeps {cps : Nat → Option BlockId} {tip t0 : Nat} {R : Nat → Txid → TxHeight → Prop} (s : Server) (ho : Order)
    (gap bs : Nat) (hs : FromHistories s tip t0 R) (sc : OMap (K ×ₗ Nat) (Script × Bool)) (u : Update) (t : Nat)
    (ht : t0 ≤ t) (hu : Upd u cps tip) (hR : AllPos (R t) u) :
    Keeps cps tip R t (rescan s ho gap bs sc u t).1.2 (rescan s ho gap bs sc u t).2.1 (rescan s ho gap bs sc u t).2.2 := by
  unfold rescan
  by_cases h : sc.isEmpty = true
  · rw [if_pos h]; exact .rfl' hu hR (by simp) (by simp)
  · rw [if_neg h]
    have hk := populateWithSpks_keeps s ho (sc.entries.map (fun e => (e.1, e.2.1))) gap bs t hs ht hu hR
    simp only
    generalize populateWithSpks s ho u (sc.entries.map (fun e => (e.1, e.2.1))) gap bs t = r at hk ⊢
    cases ho' : r.out with
    | ok a => exact ⟨hk.upd, hk.pos, hk.time, by simp, by simp⟩
    | reorg => exact ⟨hk.upd, hk.pos, hk.time, by simp, by simp⟩
    | error => exact ⟨hk.upd, hk.pos, hk.time, by simp, by simp⟩
    | panic => exact absurd ho' hk.noPanic
    | pending => exact absurd ho' hk.done

theorem scriptPart_keeps {cps : Nat → Option BlockId} {tip t0 : Nat} {R : Nat → Txid → TxHeight → Prop} (s : Server) (ho : Order)
    (gap bs : Nat) (hs : FromHistories s tip t0 R) (st : ScanState K) (u : Update) (t : Nat)
    (ht : t0 ≤ t) (hu : Upd u cps tip) (hR : AllPos (R t) u) :
    Keeps cps tip R t (scriptPart s ho gap bs st u t).1.2 (scriptPart s ho gap bs st u t).2.1 (scriptPart s ho gap bs st u t).2.2 := by
  unfold scriptPart
  by_cases h : st.requests.isEmpty = true
  · rw [if_pos h]; exact .rfl' hu hR (by simp) (by simp)
  · rw [if_neg h]
    have hk := rescan_keeps s ho gap bs hs st.scanned u t ht hu hR
    rcases hp : rescan s ho gap bs st.scanned u t with ⟨⟨sc, u'⟩, o, t'⟩
    rw [hp] at hk
    cases o with
    | ok a => exact (keychainLoop_keeps s ho gap bs hs _ _ _ _ (le_trans ht hk.time) hk.upd hk.pos).since hk.time
    | reorg => exact hk
    | error => exact hk
    | panic => exact hk
    | pending => exact hk

/-- the rest of a round: either it fails without panicking, or it returns an update with the same invariant whose tip
block the server has confirmed after all other answers -/
theorem restOfRound_keeps {cps : Nat → Option BlockId} {tip t0 : Nat} {R : Nat → Txid → TxHeight → Prop} (s : Server) (ho : Order)
    (hs : FromHistories s tip t0 R) (hout : HasOutputs s) (txids : List Txid) (ops : List OutPoint) (u : Update) (t : Nat)
    (ht : t0 ≤ t) (hu : Upd u cps tip) (hR : AllPos (R t) u) :
    (restOfRound s ho txids ops u t).1 ≠ .panic ∧ (restOfRound s ho txids ops u t).1 ≠ .pending ∧
    t ≤ (restOfRound s ho txids ops u t).2 ∧
    ∀ u', (restOfRound s ho txids ops u t).1 = .ok u' → ∃ t2 b, t ≤ t2 ∧ Upd u' cps tip ∧ AllPos (R t2) u' ∧
      u'.latestCheckpoint = some b ∧ s.header t2 b.height = some b.hash := by
  unfold restOfRound
  have hk := populateWithTxids_keeps s ho txids t hs hout ht hu hR
  rcases hp : populateWithTxids s ho u txids t with ⟨⟨u1, o⟩, t1⟩
  rw [hp] at hk
  cases o with
  | reorg => exact ⟨by simp, by simp, hk.time, by simp⟩
  | error => exact ⟨by simp, by simp, hk.time, by simp⟩
  | panic => exact absurd rfl hk.noPanic
  | pending => exact absurd rfl hk.done
  | ok a =>
    simp only
    have hk2 := populateWithOutpoints_keeps s ho ops t1 hs (le_trans ht hk.time) hk.upd hk.pos
    rcases hp2 : populateWithOutpoints s ho u1 ops t1 with ⟨⟨u2, o⟩, t2⟩
    rw [hp2] at hk2
    have htt : t ≤ t2 := le_trans hk.time hk2.time
    cases o with
    | reorg => exact ⟨by simp, by simp, htt, by simp⟩
    | error => exact ⟨by simp, by simp, htt, by simp⟩
    | panic => exact absurd rfl hk2.noPanic
    | pending => exact absurd rfl hk2.done
    | ok a =>
      simp only
      obtain ⟨b, hb, hb2, -⟩ := hk2.upd.latest
      unfold finalCheck
      rw [hb]
      simp only
      have ht3 : t ≤ t2 + 1 := by omega
      cases hh : s.header t2 b.height with
      | none => exact ⟨by simp, by simp, ht3, by simp⟩
      | some hash =>
        simp only
        by_cases e : b.hash = hash
        · rw [if_pos e]
          refine ⟨by simp, by simp, ht3, ?_⟩
          intro u' h; cases h; exact ⟨t2, b, htt, hk2.upd, hk2.pos, hb, by rw [hh, e]⟩
        · rw [if_neg e]; exact ⟨by simp, by simp, ht3, by simp⟩

end Verif.Electrum
