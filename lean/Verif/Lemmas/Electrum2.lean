import Verif.Lemmas.Electrum

/-! # Lemmas about the electrum scan: the prepared checkpoints, and whole scans with an arbitrary server -/

namespace Verif.Electrum
open Verif Spec SparseChain Verif.Props

/-- invariant of an update before the tip is inserted: no transactions yet -/
structure Prep {P : Type} [LinearOrder P] [ChainPosition P] (u : SparseChain P) : Prop where
  heights : ∀ h, HasCp u h → h < u32Max
  pos : PositionsAgree u
  lim : u.checkpointLimit = none
  none : ∀ x, u.txPosition x = none

section
variable {P : Type} [LinearOrder P] [ChainPosition P] [LawfulChainPosition P]

theorem Prep.heightsOk {u : SparseChain P} (h : Prep u) : HeightsOk u :=
  ⟨h.heights, fun t p k hp => by rw [h.none] at hp; cases hp⟩

theorem prep_empty : Prep (SparseChain.empty : SparseChain P) :=
  ⟨fun h ⟨b, hb⟩ => by simp [SparseChain.checkpointAt, SparseChain.empty] at hb, C04_positions_agree [], rfl, fun _ => rfl⟩

theorem not_hasCp_empty (h : Nat) : ¬ HasCp (SparseChain.empty : SparseChain P) h := by
  rintro ⟨b, hb⟩; simp [SparseChain.checkpointAt, SparseChain.empty] at hb

theorem insertCp_cases {u : SparseChain P} (hu : Prep u) (b : BlockId) (hb : b.height < u32Max)
    (ho : HashOrder (Txid × P)) :
    (TipConflicts u b ∧ ∃ e, (u.insertCheckpoint b ho).2 = .err e) ∨
    (¬ TipConflicts u b ∧ (∃ cs, (u.insertCheckpoint b ho).2 = .ok cs) ∧ Prep (u.insertCheckpoint b ho).1 ∧
      ∀ k, (u.insertCheckpoint b ho).1.checkpointAt k = if k = b.height then some b else u.checkpointAt k) := by
  obtain ⟨h1, h2⟩ := C13_insert_checkpoint_outcome u hu.heightsOk hu.pos b ho
  by_cases hc : TipConflicts u b
  · exact .inl ⟨hc, h2.2 hc⟩
  · refine .inr ⟨hc, ?_, ?_⟩
    · cases hr : (u.insertCheckpoint b ho).2 with
      | ok cs => exact ⟨cs, rfl⟩
      | err e => exact absurd (h2.1 ⟨e, hr⟩) hc
      | panic => exact absurd hr h1
    · obtain ⟨h3, h4⟩ := C13_insert_checkpoint_effect u hu.heightsOk hu.pos hu.lim b ho hc
      refine ⟨⟨?_, ?_, ?_, fun x => by rw [h4]; exact hu.none x⟩, h3⟩
      · rintro h ⟨x, hx⟩
        rw [h3] at hx
        by_cases e : h = b.height
        · rw [e]; exact hb
        · rw [if_neg e] at hx; exact hu.heights h ⟨x, hx⟩
      · exact positionsAgree_of_consistent (step_consistent u (.insertCheckpoint b ho) (consistent_of_positionsAgree hu.pos))
      · unfold insertCheckpoint SparseChain.applyOk
        cases u.insertCheckpointPreview b ho with
        | ok cs => exact (applyChangeset_limit _ _).trans hu.lim
        | err e => exact hu.lim
        | panic => exact hu.lim

/-- the first insertion into a chain whose tip is below conflicts with nothing -/
theorem not_tipConflicts {u : SparseChain P} {b : BlockId} (h : ¬ HasCp u b.height) : ¬ TipConflicts u b := by
  rintro ⟨x, hx, -⟩
  exact h ⟨_, (latestCheckpoint_eq.1 hx).2⟩

end

/-- the outcome of the checkpoint loop for descending local checkpoints `l` -/
theorem prepareLoop_spec (s : Server) (ho : Order) : ∀ (l : List (Nat × BlockHash)) (u : Update) (t : Nat), Prep u →
    l.Pairwise (fun a b => b.1 < a.1) → (∀ e ∈ l, ∀ h, HasCp u h → e.1 < h) → (∀ e ∈ l, e.1 < u32Max) →
    (∀ u', (prepareLoop s ho l u t).1 = .ok u' → Prep u' ∧ (∀ h, HasCp u h → u'.checkpointAt h = u.checkpointAt h) ∧
      (∀ h b, u'.checkpointAt h = some b → u.checkpointAt h = some b ∨
        (∃ t', s.header t' h = some b.hash) ∧ ∃ e ∈ l, e.1 = h) ∧
      (∀ e ∈ l, HasCp u' e.1 ∨ ∃ e' ∈ l, e.1 < e'.1 ∧ u'.checkpointAt e'.1 = some ⟨e'.1, e'.2⟩)) ∧
    ((∃ u', (prepareLoop s ho l u t).1 = .ok u') ∨
      (prepareLoop s ho l u t).1 = .error ∧ ∃ t' e, e ∈ l ∧ s.header t' e.1 = none)
  | [], u, t, hu, _, _, _ => by
    refine ⟨?_, .inl ⟨u, rfl⟩⟩
    intro u' h
    have : u = u' := by simpa [prepareLoop] using h
    subst this
    exact ⟨hu, fun _ _ => rfl, fun h b hb => .inl hb, by simp⟩
  | (h, ex) :: l, u, t, hu, hl, hlt, hsm => by
    have hhd := hlt (h, ex) List.mem_cons_self
    have hncp : ¬ HasCp u h := fun hc => absurd (hhd h hc) (lt_irrefl _)
    simp only [prepareLoop]
    cases hh : s.header t h with
    | none => exact ⟨by simp, .inr ⟨rfl, t, (h, ex), List.mem_cons_self, hh⟩⟩
    | some cur =>
      simp only
      rcases insertCp_cases hu ⟨h, cur⟩ (hsm _ List.mem_cons_self) ho with ⟨hc, -⟩ | ⟨-, ⟨cs, hcs⟩, hp, hcp⟩
      · exact absurd hc (not_tipConflicts hncp)
      · rcases hi : u.insertCheckpoint ⟨h, cur⟩ ho with ⟨u1, r⟩
        rw [hi] at hcs hp hcp
        simp only at hcs hp hcp
        subst hcs
        simp only
        have hkeep : ∀ k, HasCp u k → u1.checkpointAt k = u.checkpointAt k := by
          intro k hk
          rw [hcp, if_neg (fun e : k = h => hncp (e ▸ hk))]
        have hh1 : u1.checkpointAt h = some ⟨h, cur⟩ := by rw [hcp, if_pos rfl]
        by_cases e : cur = ex
        · rw [if_pos e]
          refine ⟨?_, .inl ⟨u1, rfl⟩⟩
          intro u' h'; cases h'
          refine ⟨hp, hkeep, ?_, ?_⟩
          · intro k b hb
            rw [hcp] at hb
            by_cases ek : k = h
            · rw [if_pos ek] at hb; cases hb; exact .inr ⟨⟨t, by rw [ek]; exact hh⟩, _, List.mem_cons_self, ek.symm⟩
            · rw [if_neg ek] at hb; exact .inl hb
          · intro e' he'
            rcases List.mem_cons.1 he' with rfl | he'
            · exact .inl ⟨_, hh1⟩
            · exact .inr ⟨(h, ex), List.mem_cons_self, (List.pairwise_cons.1 hl).1 e' he', by rw [hh1, e]⟩
        · rw [if_neg e]
          obtain ⟨hr1, hr2⟩ := prepareLoop_spec s ho l u1 (t + 1) hp (List.pairwise_cons.1 hl).2
            (by
              rintro e' he' k ⟨b, hb⟩
              rw [hcp] at hb
              by_cases ek : k = h
              · rw [ek]; exact (List.pairwise_cons.1 hl).1 e' he'
              · rw [if_neg ek] at hb; exact hlt e' (List.mem_cons_of_mem _ he') k ⟨b, hb⟩)
            (fun e' he' => hsm e' (List.mem_cons_of_mem _ he'))
          constructor
          · intro u' h'
            obtain ⟨h1, h2, h3, h4⟩ := hr1 u' h'
            have hu1 : ∀ k, HasCp u k → HasCp u1 k := by
              rintro k ⟨b, hb⟩; exact ⟨b, by rw [hkeep k ⟨b, hb⟩]; exact hb⟩
            refine ⟨h1, fun k hk => (h2 k (hu1 k hk)).trans (hkeep k hk), ?_, ?_⟩
            · intro k b hb
              rcases h3 k b hb with h5 | ⟨h5, e', he', h6⟩
              · rw [hcp] at h5
                by_cases ek : k = h
                · rw [if_pos ek] at h5; cases h5; exact .inr ⟨⟨t, by rw [ek]; exact hh⟩, _, List.mem_cons_self, ek.symm⟩
                · rw [if_neg ek] at h5; exact .inl h5
              · exact .inr ⟨h5, e', List.mem_cons_of_mem _ he', h6⟩
            · intro e' he'
              rcases List.mem_cons.1 he' with rfl | he'
              · exact .inl ⟨_, by rw [h2 h ⟨_, hh1⟩]; exact hh1⟩
              · rcases h4 e' he' with h5 | ⟨e'', h6, h7⟩
                · exact .inl h5
                · exact .inr ⟨e'', List.mem_cons_of_mem _ h6, h7⟩
          · rcases hr2 with h5 | ⟨h5, t', e', h6, h7⟩
            · exact .inl h5
            · exact .inr ⟨h5, t', e', List.mem_cons_of_mem _ h6, h7⟩

/-- every wallet checkpoint is covered by the update or lies below a wallet block the update contains too -/
def Connects (m : OMap Nat BlockHash) (cps : Nat → Option BlockId) : Prop :=
  ∀ h x, m.get h = some x → (∃ b, cps h = some b) ∨ ∃ a y, h < a ∧ m.get a = some y ∧ cps a = some ⟨a, y⟩

/-- reported tips fit `u32` -/
def SmallTips (s : Server) : Prop := ∀ t b, s.tip t = some b → b.height < u32Max
/-- the server's tip is never below a wallet checkpoint -/
def TipsAbove (s : Server) (m : OMap Nat BlockHash) : Prop :=
  ∀ t b h x, s.tip t = some b → m.get h = some x → h ≤ b.height

theorem local_desc (m : OMap Nat BlockHash) : m.entries.reverse.Pairwise (fun a b => b.1 < a.1) := by
  rw [List.pairwise_reverse]
  have := m.sorted
  exact this

theorem mem_local {m : OMap Nat BlockHash} {e : Nat × BlockHash} : e ∈ m.entries.reverse ↔ m.get e.1 = some e.2 := by
  rw [List.mem_reverse]
  exact OMap.mem_entries

/-- the checkpoints of a prepared update come from header answers at wallet heights, and the tip -/
def CpsReported (s : Server) (m : OMap Nat BlockHash) (cps : Nat → Option BlockId) : Prop :=
  ∀ h b, cps h = some b → (∃ t, s.tip t = some b) ∨ ((∃ t, s.header t h = some b.hash) ∧ ∃ x, m.get h = some x)

theorem prepareUpdate_spec (s : Server) (ho : Order) (m : OMap Nat BlockHash) (hsm : SmallTips s)
    (hm : ∀ h x, m.get h = some x → h < u32Max) : ∀ (n t : Nat),
    (prepareUpdate s ho m n t).1 ≠ .panic ∧ (prepareUpdate s ho m n t).1 ≠ .reorg ∧
    ∀ u, (prepareUpdate s ho m n t).1 = .ok u → ∃ tip, Upd u u.checkpointAt tip ∧ (∀ x, u.txPosition x = none) ∧
      CpsReported s m u.checkpointAt ∧ (TipsAbove s m → Connects m u.checkpointAt)
  | 0, t => by simp [prepareUpdate]
  | n + 1, t => by
    obtain ⟨h1, h2⟩ := prepareLoop_spec s ho m.entries.reverse SparseChain.empty t prep_empty (local_desc m)
      (fun _ _ h hh => absurd hh (not_hasCp_empty h)) (fun e he => hm _ _ (mem_local.1 he))
    simp only [prepareUpdate]
    rcases hp : prepareLoop s ho m.entries.reverse SparseChain.empty t with ⟨o, t1⟩
    rw [hp] at h1 h2
    rcases h2 with ⟨u, hu⟩ | ⟨he, -⟩
    · simp only at hu h1
      subst hu
      obtain ⟨h3, -, h4, h5⟩ := h1 u rfl
      simp only
      cases ht : s.tip t1 with
      | none => simp
      | some b =>
        simp only
        rcases insertCp_cases h3 b (hsm _ _ ht) ho with ⟨-, e, he⟩ | ⟨hnc, ⟨cs, hcs⟩, hp', hcp⟩
        · rcases hi : u.insertCheckpoint b ho with ⟨u1, r⟩
          rw [hi] at he
          simp only at he
          subst he
          exact prepareUpdate_spec s ho m hsm hm n (t1 + 1)
        · rcases hi : u.insertCheckpoint b ho with ⟨u1, r⟩
          rw [hi] at hcs hp' hcp
          simp only at hcs hp' hcp
          subst hcs
          refine ⟨by simp, by simp, ?_⟩
          intro u' hu'
          cases hu'
          have hhas : HasCp u1 b.height := ⟨b, by rw [hcp, if_pos rfl]⟩
          obtain ⟨tip, htip⟩ : ∃ tip, IsTip u1 tip := by
            cases hl : lastUpdateCp u1 with
            | none => exact absurd hhas (lastUpdateCp_none.1 hl _)
            | some tip => exact ⟨tip, lastUpdateCp_some.1 hl⟩
          refine ⟨tip, ⟨hp'.heightsOk, hp'.pos, hp'.lim, fun _ => rfl, htip, fun x p h hx => by rw [hp'.none] at hx; cases hx⟩,
            hp'.none, ?_, ?_⟩
          · intro h b' hb'
            rw [hcp] at hb'
            by_cases e : h = b.height
            · rw [if_pos e] at hb'; cases hb'; exact .inl ⟨t1, ht⟩
            · rw [if_neg e] at hb'
              rcases h4 h b' hb' with h6 | ⟨h6, e', he', h7⟩
              · exact absurd ⟨_, h6⟩ (not_hasCp_empty h)
              · exact .inr ⟨h6, e'.2, by rw [← h7]; exact mem_local.1 he'⟩
          · intro hta h x hx
            by_cases e : h = b.height
            · exact .inl ⟨b, by rw [hcp, if_pos e]⟩
            · rcases h5 (h, x) (mem_local.2 hx) with ⟨b', hb'⟩ | ⟨⟨a, y⟩, h6, h7, h8⟩
              · exact .inl ⟨b', by rw [hcp, if_neg e]; exact hb'⟩
              · refine .inr ⟨a, y, h7, mem_local.1 h6, ?_⟩
                rw [hcp]
                by_cases ea : a = b.height
                · rw [if_pos ea]
                  have hal : IsTip u b.height := by
                    refine ⟨⟨_, by rw [← ea]; exact h8⟩, ?_⟩
                    rintro k ⟨b', hb'⟩
                    rcases h4 k b' hb' with h9 | ⟨-, e', he', h10⟩
                    · exact absurd ⟨_, h9⟩ (not_hasCp_empty k)
                    · rw [← h10]; exact hta t1 b e'.1 e'.2 ht (mem_local.1 he')
                  have hlat : u.latestCheckpoint = some ⟨b.height, y⟩ :=
                    latestCheckpoint_eq.2 ⟨hal, by rw [← ea]; exact h8⟩
                  by_contra hne
                  refine hnc ⟨y, hlat, ?_⟩
                  intro hy
                  apply hne
                  rw [hy, ea]
                · rw [if_neg ea]; exact h8
    · simp only at he
      subst he
      simp

/-- where positions come from: an entry of a history some answer from time `lo` on and before `hi` contained, read
relative to the tip -/
def PosReported (s : Server) (tip lo hi : Nat) (x : Txid) (p : TxHeight) : Prop :=
  ∃ t k l raw, lo ≤ t ∧ t < hi ∧ s.history t k = some l ∧ (x, raw) ∈ l ∧ p = determineTxHeight raw tip x

theorem fromHistories_reported (s : Server) (tip lo : Nat) : FromHistories s tip lo (PosReported s tip lo) :=
  ⟨fun _ _ _ _ h ⟨t, k, l, raw, h1, h2, h3⟩ => ⟨t, k, l, raw, h1, lt_of_lt_of_le h2 h, h3⟩,
    fun t ht k l _ raw h1 h2 => ⟨t, k, l, raw, ht, Nat.lt_succ_self t, h1, h2, rfl⟩⟩

theorem prepareLoop_time (s : Server) (ho : Order) : ∀ (l : List (Nat × BlockHash)) (u : Update) (t : Nat),
    t ≤ (prepareLoop s ho l u t).2
  | [], u, t => le_refl _
  | (h, x) :: l, u, t => by
    simp only [prepareLoop]
    cases s.header t h with
    | none => exact Nat.le_succ _
    | some c =>
      simp only
      rcases u.insertCheckpoint ⟨h, c⟩ ho with ⟨u', r⟩
      cases r with
      | ok _ =>
        simp only
        split
        · exact Nat.le_succ _
        · exact le_trans (Nat.le_succ _) (prepareLoop_time s ho l u' (t + 1))
      | err _ => exact Nat.le_succ _
      | panic => exact Nat.le_succ _

/-- the update of a round starts with the tip the server names at the start of the round -/
theorem prepareUpdate_tip (s : Server) (ho : Order) (m : OMap Nat BlockHash) (hsm : SmallTips s)
    (hm : ∀ h x, m.get h = some x → h < u32Max) : ∀ (n t : Nat) (u : Update) (t' : Nat), prepareUpdate s ho m n t = (.ok u, t') →
    ∃ T b, t ≤ T ∧ t' = T + 1 ∧ s.tip T = some b ∧ u.checkpointAt b.height = some b
  | 0, t, u, t', h => by simp [prepareUpdate] at h
  | n + 1, t, u, t', h => by
    obtain ⟨h1, h2⟩ := prepareLoop_spec s ho m.entries.reverse SparseChain.empty t prep_empty (local_desc m)
      (fun _ _ h hh => absurd hh (not_hasCp_empty h)) (fun e he => hm _ _ (mem_local.1 he))
    have htime := prepareLoop_time s ho m.entries.reverse SparseChain.empty t
    simp only [prepareUpdate] at h
    rcases hp : prepareLoop s ho m.entries.reverse SparseChain.empty t with ⟨o, t1⟩
    rw [hp] at h1 h2 h htime
    rcases h2 with ⟨u0, hu⟩ | ⟨he, -⟩
    · simp only at hu h1 htime
      subst hu
      obtain ⟨h3, -, h4, h5⟩ := h1 u0 rfl
      simp only at h
      cases ht : s.tip t1 with
      | none => rw [ht] at h; cases h
      | some b =>
        rw [ht] at h
        simp only at h
        rcases insertCp_cases h3 b (hsm _ _ ht) ho with ⟨-, e, he⟩ | ⟨hnc, ⟨cs, hcs⟩, hp', hcp⟩
        · rcases hi : u0.insertCheckpoint b ho with ⟨u1, r⟩
          rw [hi] at he h
          simp only at he
          subst he
          obtain ⟨T, b', a1, a2⟩ := prepareUpdate_tip s ho m hsm hm n (t1 + 1) u t' h
          exact ⟨T, b', by omega, a2⟩
        · rcases hi : u0.insertCheckpoint b ho with ⟨u1, r⟩
          rw [hi] at hcs hp' hcp h
          simp only at hcs hp' hcp
          subst hcs
          cases h
          exact ⟨t1, b, htime, rfl, ht, by rw [hcp, if_pos rfl]⟩
    · simp only at he
      subst he
      cases h

/-- a finished update of a round begun at `t0`: `T` is the time of the request for the tip, `t2` that of the final check -/
structure Finished (s : Server) (m : OMap Nat BlockHash) (t0 : Nat) (u : Update) (tip T t2 : Nat) : Prop where
  upd : Upd u u.checkpointAt tip
  pos : AllPos (PosReported s tip (T + 1) t2) u
  cps : CpsReported s m u.checkpointAt
  connects : TipsAbove s m → Connects m u.checkpointAt
  started : t0 ≤ T
  order : T < t2
  begin : ∃ b, s.tip T = some b ∧ u.checkpointAt b.height = some b
  final : ∃ b, u.latestCheckpoint = some b ∧ s.header t2 b.height = some b.hash

theorem Finished.since {s : Server} {m : OMap Nat BlockHash} {t0 t1 : Nat} {u : Update} {tip T t2 : Nat}
    (h : Finished s m t1 u tip T t2) (h0 : t0 ≤ t1) : Finished s m t0 u tip T t2 :=
  { h with started := le_trans h0 h.started }

theorem prepareUpdate_time (s : Server) (ho : Order) (m : OMap Nat BlockHash) : ∀ (n t : Nat), t ≤ (prepareUpdate s ho m n t).2
  | 0, t => le_refl _
  | n + 1, t => by
    have h1 := prepareLoop_time s ho m.entries.reverse SparseChain.empty t
    simp only [prepareUpdate]
    rcases hp : prepareLoop s ho m.entries.reverse SparseChain.empty t with ⟨o, t1⟩
    rw [hp] at h1
    simp only at h1
    cases o with
    | ok u0 =>
      simp only
      cases ht : s.tip t1 with
      | none => exact le_trans h1 (Nat.le_succ _)
      | some b =>
        simp only
        rcases hi : u0.insertCheckpoint b ho with ⟨u1, r⟩
        cases r with
        | ok _ => exact le_trans h1 (Nat.le_succ _)
        | err _ => exact le_trans (le_trans h1 (Nat.le_succ _)) (prepareUpdate_time s ho m n (t1 + 1))
        | panic => exact le_trans h1 (Nat.le_succ _)
    | reorg => exact h1
    | error => exact h1
    | panic => exact h1
    | pending => exact h1

variable {K : Type} [LinearOrder K]

theorem scanRound_spec (s : Server) (ho : Order) (m : OMap Nat BlockHash) (hsm : SmallTips s) (hout : HasOutputs s)
    (hm : ∀ h x, m.get h = some x → h < u32Max) (txids : List Txid) (ops : List OutPoint) (gap bs fuel : Nat)
    (st : ScanState K) (t : Nat) :
    (scanRound s ho m txids ops gap bs fuel st t).2.1 ≠ .panic ∧ t ≤ (scanRound s ho m txids ops gap bs fuel st t).2.2 ∧
    ∀ u, (scanRound s ho m txids ops gap bs fuel st t).2.1 = .ok u → ∃ tip T t2, Finished s m t u tip T t2 ∧
      ∃ u0, prepareUpdate s ho m fuel t = (.ok u0, T + 1) := by
  obtain ⟨h1, h2, h3⟩ := prepareUpdate_spec s ho m hsm hm fuel t
  have h0 := prepareUpdate_time s ho m fuel t
  unfold scanRound
  rcases hp : prepareUpdate s ho m fuel t with ⟨o, t1⟩
  rw [hp] at h1 h2 h3 h0
  simp only at h0
  cases o with
  | reorg => exact absurd rfl h2
  | panic => exact absurd rfl h1
  | error => exact ⟨by simp, h0, by simp⟩
  | pending => exact ⟨by simp, h0, by simp⟩
  | ok u =>
    obtain ⟨T, b0, a1, a2, a3, a4⟩ := prepareUpdate_tip s ho m hsm hm fuel t u t1 hp
    subst a2
    obtain ⟨tip, h4, h5, h6, h7⟩ := h3 u rfl
    simp only
    have hF := fromHistories_reported s tip (T + 1)
    have hR : AllPos (PosReported s tip (T + 1) (T + 1)) u := fun x p hx => by rw [h5] at hx; cases hx
    have hk := scriptPart_keeps s ho gap bs hF st u (T + 1) (le_refl _) h4 hR
    rcases hp2 : scriptPart s ho gap bs st u (T + 1) with ⟨⟨st', u1⟩, o, t2⟩
    rw [hp2] at hk
    have hkt := hk.time
    simp only at hkt
    cases o with
    | reorg => exact ⟨by simp, le_trans h0 hkt, by simp⟩
    | panic => exact absurd rfl hk.noPanic
    | error => exact ⟨by simp, le_trans h0 hkt, by simp⟩
    | pending => exact absurd rfl hk.done
    | ok a =>
      simp only
      obtain ⟨h8, -, h8', h9⟩ := restOfRound_keeps s ho hF hout txids ops u1 t2 hkt hk.upd hk.pos
      refine ⟨h8, le_trans h0 (le_trans hkt h8'), fun u' hu' => ?_⟩
      obtain ⟨t3, b, h10, h11, h12, h13, h14⟩ := h9 u' hu'
      have : u'.checkpointAt = u.checkpointAt := funext h11.cp
      exact ⟨tip, T, t3, ⟨this ▸ h11, h12, this ▸ h6, this ▸ h7, a1, by omega, ⟨b0, a3, by rw [this]; exact a4⟩, b, h13, h14⟩, u, rfl⟩

theorem scanLoop_spec (s : Server) (ho : Order) (m : OMap Nat BlockHash) (hsm : SmallTips s) (hout : HasOutputs s)
    (hm : ∀ h x, m.get h = some x → h < u32Max) (txids : List Txid) (ops : List OutPoint) (gap bs : Nat) :
    ∀ (n : Nat) (st : ScanState K) (t : Nat), scanLoop s ho m txids ops gap bs n st t ≠ .panic ∧
    scanLoop s ho m txids ops gap bs n st t ≠ .reorg ∧
    ∀ r, scanLoop s ho m txids ops gap bs n st t = .ok r → ∃ tip T t2, Finished s m t r.2 tip T t2
  | 0, st, t => by simp [scanLoop]
  | n + 1, st, t => by
    have h := scanRound_spec s ho m hsm hout hm txids ops gap bs (n + 1) st t
    simp only [scanLoop]
    rcases hp : scanRound s ho m txids ops gap bs (n + 1) st t with ⟨st', o, t'⟩
    rw [hp] at h
    cases o with
    | ok u =>
      refine ⟨by simp, by simp, ?_⟩
      intro r hr; cases hr
      obtain ⟨tip, T, t2, hf, -⟩ := h.2.2 u rfl
      exact ⟨tip, T, t2, hf⟩
    | reorg =>
      obtain ⟨i1, i2, i3⟩ := scanLoop_spec s ho m hsm hout hm txids ops gap bs n st' t'
      refine ⟨i1, i2, fun r hr => ?_⟩
      obtain ⟨tip, T, t2, hf⟩ := i3 r hr
      exact ⟨tip, T, t2, hf.since h.2.1⟩
    | error => simp
    | panic => exact absurd rfl h.1
    | pending => simp

theorem scan_spec (s : Server) (ho : Order) (m : OMap Nat BlockHash) (hsm : SmallTips s) (hout : HasOutputs s)
    (hm : ∀ h x, m.get h = some x → h < u32Max) (ks : OMap K (List (Nat × Script))) (txids : List Txid)
    (ops : List OutPoint) (gap bs n t : Nat) :
    scan s ho m ks txids ops gap bs n t ≠ .panic ∧
    ∀ r, scan s ho m ks txids ops gap bs n t = .ok r → ∃ tip T t2, Finished s m t r.chainUpdate tip T t2 := by
  obtain ⟨h1, h2, h3⟩ := scanLoop_spec (K := K) s ho m hsm hout hm txids ops gap bs n ⟨ks.entries, OMap.empty⟩ t
  unfold scan
  cases hr : scanLoop s ho m txids ops gap bs n ⟨ks.entries, OMap.empty⟩ t with
  | ok r =>
    refine ⟨by simp, ?_⟩
    intro r' hr'; cases hr'
    exact h3 r hr
  | reorg => exact absurd hr h2
  | error => simp
  | panic => exact absurd hr h1
  | pending => simp

end Verif.Electrum
