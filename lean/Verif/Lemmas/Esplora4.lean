import Verif.Lemmas.Esplora3

/-! # Lemmas about the esplora scan with an arbitrary server: checkpoints and whole scans -/

namespace Verif.Esplora
open Verif Spec Verif.Props
variable {T : Type} [LinearOrder T] [AsTransaction T] [LawfulTx T]

/-- invariant of an update before the tip is inserted -/
structure CPrep (u : Update T) : Prop where
  reach : ChainGraph.Reachable u
  prep : Electrum.Prep u.chain
  noTx : u.graph = TxGraph.empty

theorem cprep_empty : CPrep (ChainGraph.empty : Update T) := ⟨.empty, Electrum.prep_empty, rfl⟩

theorem insertCheckpoint_graph (u : Update T) (b : BlockId) (o : Orders ConfirmationTime T) (h : u.graph = TxGraph.empty) :
    (u.insertCheckpoint b o).1.graph = TxGraph.empty := by
  unfold ChainGraph.insertCheckpoint ChainGraph.insertCheckpointPreview
  cases u.chain.insertCheckpointPreview b o.chain with
  | panic => exact h
  | err e => exact h
  | ok cs =>
    show u.graph.applyAdditions Additions.empty = _
    rw [h]
    rfl

omit [LawfulTx T] in
theorem insertCheckpoint_chain (u : Update T) (b : BlockId) (o : Orders ConfirmationTime T) :
    (u.insertCheckpoint b o).1.chain = (u.chain.insertCheckpoint b o.chain).1 ∧
    ((∃ cs, (u.chain.insertCheckpoint b o.chain).2 = .ok cs) → ∃ cs, (u.insertCheckpoint b o).2 = .ok cs) ∧
    ((∃ e, (u.chain.insertCheckpoint b o.chain).2 = .err e) → ∃ e, (u.insertCheckpoint b o).2 = .err e) := by
  unfold ChainGraph.insertCheckpoint ChainGraph.insertCheckpointPreview SparseChain.insertCheckpoint
  cases u.chain.insertCheckpointPreview b o.chain with
  | panic => exact ⟨rfl, (by rintro ⟨_, h⟩; cases h), (by rintro ⟨_, h⟩; cases h)⟩
  | err e => exact ⟨rfl, (by rintro ⟨_, h⟩; cases h), fun _ => ⟨e, rfl⟩⟩
  | ok cs => exact ⟨rfl, fun _ => ⟨_, rfl⟩, (by rintro ⟨_, h⟩; cases h)⟩

theorem insertCp_cases {u : Update T} (hu : CPrep u) (b : BlockId) (hb : b.height < u32Max) (o : Orders ConfirmationTime T) :
    (TipConflicts u.chain b ∧ ∃ u' e, u.insertCheckpoint b o = (u', .err e)) ∨
    (¬ TipConflicts u.chain b ∧ ∃ u' cs, u.insertCheckpoint b o = (u', .ok cs) ∧ CPrep u' ∧
      ∀ k, u'.chain.checkpointAt k = if k = b.height then some b else u.chain.checkpointAt k) := by
  obtain ⟨h1, h2, h3⟩ := insertCheckpoint_chain u b o
  rcases Electrum.insertCp_cases hu.prep b hb o.chain with ⟨hc, h⟩ | ⟨hc, h, hp, hcp⟩
  · obtain ⟨e, he⟩ := h3 h
    exact .inl ⟨hc, _, e, Prod.ext rfl he⟩
  · obtain ⟨cs, hcs⟩ := h2 h
    exact .inr ⟨hc, _, cs, Prod.ext rfl hcs, ⟨.insertCheckpoint b o hu.reach, (by rw [h1]; exact hp), insertCheckpoint_graph u b o hu.noTx⟩, fun k => by rw [h1]; exact hcp k⟩

/-- the outcome of the checkpoint loop for descending local checkpoints `l` -/
theorem checkpointLoop_spec (s : Server T) (o : Orders ConfirmationTime T) : ∀ (l : List (Nat × BlockHash)) (u : Update T) (t : Nat), CPrep u →
    l.Pairwise (fun a b => b.1 < a.1) → (∀ e ∈ l, ∀ h, HasCp u.chain h → e.1 < h) → (∀ e ∈ l, e.1 < u32Max) →
    (∃ u' t', checkpointLoop s o l u t = .ok (u', t') ∧ t ≤ t' ∧ CPrep u' ∧
      (∀ h, HasCp u.chain h → u'.chain.checkpointAt h = u.chain.checkpointAt h) ∧
      (∀ h b, u'.chain.checkpointAt h = some b → u.chain.checkpointAt h = some b ∨
        (∃ t', t ≤ t' ∧ s.blockHash t' h = some b.hash) ∧ ∃ e ∈ l, e.1 = h) ∧
      (∀ e ∈ l, HasCp u'.chain e.1 ∨ ∃ e' ∈ l, e.1 < e'.1 ∧ u'.chain.checkpointAt e'.1 = some ⟨e'.1, e'.2⟩)) ∨
    (checkpointLoop s o l u t = .error ∧ ∃ t' e, t ≤ t' ∧ e ∈ l ∧ s.blockHash t' e.1 = none)
  | [], u, t, hu, _, _, _ => .inl ⟨u, t, rfl, le_refl _, hu, fun _ _ => rfl, fun h b hb => .inl hb, by simp⟩
  | (h, ex) :: l, u, t, hu, hl, hlt, hsm => by
    have hhd := hlt (h, ex) List.mem_cons_self
    have hncp : ¬ HasCp u.chain h := fun hc => absurd (hhd h hc) (lt_irrefl _)
    simp only [checkpointLoop]
    cases hh : s.blockHash t h with
    | none => exact .inr ⟨rfl, t, (h, ex), le_refl _, List.mem_cons_self, hh⟩
    | some cur =>
      simp only
      rcases insertCp_cases hu ⟨h, cur⟩ (hsm _ List.mem_cons_self) o with ⟨hc, -⟩ | ⟨-, u1, cs, hi, hp, hcp⟩
      · exact absurd hc (Electrum.not_tipConflicts (b := ⟨h, cur⟩) hncp)
      · rw [hi]
        simp only at hcp ⊢
        have hkeep : ∀ k, HasCp u.chain k → u1.chain.checkpointAt k = u.chain.checkpointAt k := by
          intro k hk
          rw [hcp, if_neg (fun e : k = h => hncp (e ▸ hk))]
        have hh1 : u1.chain.checkpointAt h = some ⟨h, cur⟩ := by rw [hcp, if_pos rfl]
        by_cases e : cur = ex
        · rw [if_pos e]
          refine .inl ⟨u1, t + 1, rfl, Nat.le_succ t, hp, hkeep, ?_, ?_⟩
          · intro k b hb
            rw [hcp] at hb
            by_cases ek : k = h
            · rw [if_pos ek] at hb; cases hb; exact .inr ⟨⟨t, le_refl _, by rw [ek]; exact hh⟩, _, List.mem_cons_self, ek.symm⟩
            · rw [if_neg ek] at hb; exact .inl hb
          · intro e' he'
            rcases List.mem_cons.1 he' with rfl | he'
            · exact .inl ⟨_, hh1⟩
            · exact .inr ⟨(h, ex), List.mem_cons_self, (List.pairwise_cons.1 hl).1 e' he', by rw [hh1, e]⟩
        · rw [if_neg e]
          rcases checkpointLoop_spec s o l u1 (t + 1) hp (List.pairwise_cons.1 hl).2
            (by
              rintro e' he' k ⟨b, hb⟩
              rw [hcp] at hb
              by_cases ek : k = h
              · rw [ek]; exact (List.pairwise_cons.1 hl).1 e' he'
              · rw [if_neg ek] at hb; exact hlt e' (List.mem_cons_of_mem _ he') k ⟨b, hb⟩)
            (fun e' he' => hsm e' (List.mem_cons_of_mem _ he')) with ⟨u', t', h0, h00, h1, h2, h3, h4⟩ | ⟨h5, t', e', h60, h6, h7⟩
          · have hu1 : ∀ k, HasCp u.chain k → HasCp u1.chain k := by
              rintro k ⟨b, hb⟩; exact ⟨b, by rw [hkeep k ⟨b, hb⟩]; exact hb⟩
            refine .inl ⟨u', t', h0, by omega, h1, fun k hk => (h2 k (hu1 k hk)).trans (hkeep k hk), ?_, ?_⟩
            · intro k b hb
              rcases h3 k b hb with h5 | ⟨⟨t5, h50, h5⟩, e', he', h6⟩
              · rw [hcp] at h5
                by_cases ek : k = h
                · rw [if_pos ek] at h5; cases h5; exact .inr ⟨⟨t, le_refl _, by rw [ek]; exact hh⟩, _, List.mem_cons_self, ek.symm⟩
                · rw [if_neg ek] at h5; exact .inl h5
              · exact .inr ⟨⟨t5, by omega, h5⟩, e', List.mem_cons_of_mem _ he', h6⟩
            · intro e' he'
              rcases List.mem_cons.1 he' with rfl | he'
              · exact .inl ⟨_, by rw [h2 h ⟨_, hh1⟩]; exact hh1⟩
              · rcases h4 e' he' with h5 | ⟨e'', h6, h7⟩
                · exact .inl h5
                · exact .inr ⟨e'', List.mem_cons_of_mem _ h6, h7⟩
          · exact .inr ⟨h5, t', e', by omega, List.mem_cons_of_mem _ h6, h7⟩

/-- the checkpoints of an update come from answers about wallet heights, and the tip -/
def CpsReported (s : Server T) (m : OMap Nat BlockHash) (t0 : Nat) (start : BlockId) (cps : Nat → Option BlockId) : Prop :=
  ∀ h b, cps h = some b → b = start ∨ ((∃ t, t0 ≤ t ∧ s.blockHash t h = some b.hash) ∧ ∃ x, m.get h = some x)

/-- the server's height is never below a wallet checkpoint -/
def TipsAbove (s : Server T) (m : OMap Nat BlockHash) : Prop :=
  ∀ t h h' x, s.height t = some h → m.get h' = some x → h' ≤ h

/-- a finished pass begun at `t0`: height and hash of the tip were asked at `T` and `T + 1`, `t2` is the time of the final check
and `final` its answer -/
structure Finished (s : Server T) (m : OMap Nat BlockHash) (t0 : Nat) (u : Update T) (start tip : BlockId) (T2 t2 : Nat)
    (final : BlockHash) : Prop where
  height : s.height T2 = some start.height
  hash : s.tipHash (T2 + 1) = some start.hash
  hasStart : u.chain.checkpointAt start.height = some start
  upd : CUpd u u.chain.checkpointAt tip.height
  latest : u.chain.latestCheckpoint = some tip
  pos : AllPos (Rep s start.height (T2 + 2) t2) u
  cps : CpsReported s m t0 start u.chain.checkpointAt
  connects : TipsAbove s m → Electrum.Connects m u.chain.checkpointAt
  started : t0 ≤ T2
  order : T2 + 2 ≤ t2
  final : s.blockHash t2 tip.height = some final

variable {K : Type} [LinearOrder K]

theorem pass_spec (s : Server T) (o : Orders ConfirmationTime T) (m : OMap Nat BlockHash) (ks : OMap K (List (Nat × Script)))
    (txids : List Txid) (ops : List OutPoint) (stopGap par fuel t : Nat) (hsm : ∀ t h, s.height t = some h → h < u32Max)
    (hm : ∀ h x, m.get h = some x → h < u32Max) :
    pass s o m ks txids ops stopGap par fuel t ≠ .panic ∧
    (∀ t', pass s o m ks txids ops stopGap par fuel t = .ok (.restart t') → t < t') ∧
    ∀ sc r t', pass s o m ks txids ops stopGap par fuel t = .ok (.done sc r t') →
      ∃ start tip T2 t2 final, Finished s m t sc.update start tip T2 t2 final ∧ ActiveOk s (T2 + 2) t2 ks sc.lastActiveIndices ∧
        (r = true ↔ final ≠ tip.hash) ∧ t' = t2 + 1 := by
  unfold pass
  rcases checkpointLoop_spec s o m.entries.reverse ChainGraph.empty t cprep_empty (Electrum.local_desc m)
      (fun _ _ h hh => absurd hh (Electrum.not_hasCp_empty h)) (fun e he => hm _ _ (Electrum.mem_local.1 he)) with
    ⟨u, t1, h1, h2, h3, -, h4, h5⟩ | ⟨h1, -⟩
  · rw [h1]
    simp only
    cases hh : s.height t1 with
    | none => simp
    | some height =>
      simp only
      cases hx : s.tipHash (t1 + 1) with
      | none => simp
      | some hash =>
        simp only
        rcases insertCp_cases h3 ⟨height, hash⟩ (hsm _ _ hh) o with ⟨-, u1, e, hi⟩ | ⟨hnc, u1, cs, hi, hp', hcp⟩
        · rw [hi]
          refine ⟨by simp, ?_, by simp⟩
          intro t' h; cases h; omega
        · rw [hi]
          simp only at hcp ⊢
          have hhas : u1.chain.checkpointAt height = some ⟨height, hash⟩ := by rw [hcp, if_pos rfl]
          obtain ⟨tip, htip⟩ : ∃ tip, IsTip u1.chain tip := by
            cases hl : SparseChain.lastUpdateCp u1.chain with
            | none => exact absurd ⟨_, hhas⟩ (SparseChain.lastUpdateCp_none.1 hl _)
            | some tip => exact ⟨tip, SparseChain.lastUpdateCp_some.1 hl⟩
          have hupd : Electrum.Upd u1.chain u1.chain.checkpointAt tip :=
            ⟨hp'.prep.heightsOk, hp'.prep.pos, hp'.prep.lim, fun _ => rfl, htip, fun x p h hx => by rw [hp'.prep.none] at hx; cases hx⟩
          have hle : height ≤ tip := htip.2 _ ⟨_, hhas⟩
          have hgood : Good s u1.chain.checkpointAt tip height (t1 + 2) (t1 + 2) u1 :=
            ⟨le_refl _, ⟨hp'.reach, hupd⟩, fun x p hx => by rw [hp'.prep.none] at hx; cases hx⟩
          obtain ⟨k1, k2, k3⟩ := collect_keeps hle o ks txids ops stopGap (max par 1) fuel u1 (t1 + 2) hgood
          refine ⟨k1, fun t' h => absurd h (k2 t'), ?_⟩
          intro sc r t' hd
          obtain ⟨t2, b, q1, q2, q3, q4, q5, q6, q7, f, q8, q9⟩ := k3 sc r t' hd
          have hcps : sc.update.chain.checkpointAt = u1.chain.checkpointAt := funext q3.2.1.upd.cp
          refine ⟨⟨height, hash⟩, b, t1, t2, f, ?_, q4, q9, q2⟩
          refine ⟨hh, hx, by rw [hcps]; exact hhas, by rw [hcps, q6]; exact q3.2.1, q5, q3.2.2, ?_, ?_, h2, q1, q8⟩
          · rw [hcps]
            intro h b' hb'
            rw [hcp] at hb'
            by_cases e : h = height
            · rw [if_pos e] at hb'; cases hb'; exact .inl rfl
            · rw [if_neg e] at hb'
              rcases h4 h b' hb' with h6 | ⟨h6, e', he', h7⟩
              · exact absurd ⟨_, h6⟩ (Electrum.not_hasCp_empty h)
              · exact .inr ⟨h6, e'.2, by rw [← h7]; exact Electrum.mem_local.1 he'⟩
          · rw [hcps]
            intro hta h x hx
            by_cases e : h = height
            · exact .inl ⟨⟨height, hash⟩, by rw [hcp, if_pos e]⟩
            · rcases h5 (h, x) (Electrum.mem_local.2 hx) with ⟨b', hb'⟩ | ⟨⟨a, y⟩, h6, h7, h8⟩
              · exact .inl ⟨b', by rw [hcp, if_neg e]; exact hb'⟩
              · refine .inr ⟨a, y, h7, Electrum.mem_local.1 h6, ?_⟩
                rw [hcp]
                by_cases ea : a = height
                · rw [if_pos ea]
                  have hal : IsTip u.chain height := by
                    refine ⟨⟨_, by rw [← ea]; exact h8⟩, ?_⟩
                    rintro k ⟨b', hb'⟩
                    rcases h4 k b' hb' with h9 | ⟨-, e', he', h10⟩
                    · exact absurd ⟨_, h9⟩ (Electrum.not_hasCp_empty k)
                    · rw [← h10]; exact hta t1 height e'.1 e'.2 hh (Electrum.mem_local.1 he')
                  have hlat : u.chain.latestCheckpoint = some ⟨height, y⟩ :=
                    Electrum.latestCheckpoint_eq.2 ⟨hal, by rw [← ea]; exact h8⟩
                  by_contra hne
                  refine hnc ⟨y, hlat, ?_⟩
                  intro hy
                  apply hne
                  rw [ea]
                  rw [hy]
                · rw [if_neg ea]; exact h8
  · rw [h1]; simp

theorem Finished.since {s : Server T} {m : OMap Nat BlockHash} {t0 t1 : Nat} {u : Update T} {start tip : BlockId} {T2 t2 : Nat}
    {f : BlockHash} (h : Finished s m t1 u start tip T2 t2 f) (h0 : t0 ≤ t1) : Finished s m t0 u start tip T2 t2 f :=
  { h with
    started := le_trans h0 h.started
    cps := fun k b hb => by
      rcases h.cps k b hb with h' | ⟨⟨t, ht, h'⟩, h''⟩
      · exact .inl h'
      · exact .inr ⟨⟨t, le_trans h0 ht, h'⟩, h''⟩ }

theorem scan_spec (s : Server T) (o : Orders ConfirmationTime T) (m : OMap Nat BlockHash) (par fuel : Nat)
    (hsm : ∀ t h, s.height t = some h → h < u32Max) (hm : ∀ h x, m.get h = some x → h < u32Max) :
    ∀ (n : Nat) (K : Type) [LinearOrder K] (ks : OMap K (List (Nat × Script))) (txids : List Txid) (ops : List OutPoint)
      (stopGap t : Nat),
    scan s o m par fuel n K ks txids ops stopGap t ≠ .panic ∧
    ∀ r, scan s o m par fuel n K ks txids ops stopGap t = .ok r →
      ∃ start tip T2 t2, Finished s m t r.update start tip T2 t2 tip.hash ∧
        ∃ lo hi, t ≤ lo ∧ hi ≤ t2 ∧ ActiveOk s lo hi ks r.lastActiveIndices
  | 0, K, _, _, _, _, _, _ => by simp [scan]
  | n + 1, K, _, ks, txids, ops, stopGap, t => by
    obtain ⟨h1, h2, h3⟩ := pass_spec s o m ks txids ops stopGap par fuel t hsm hm
    simp only [scan]
    rcases hp : pass s o m ks txids ops stopGap par fuel t with ⟨t1 | ⟨sc, r, t1⟩⟩ | _ | _ | _
    · have ht := h2 t1 hp
      obtain ⟨h4, h5⟩ := scan_spec s o m par fuel hsm hm n K ks txids ops stopGap t1
      refine ⟨h4, fun r hr => ?_⟩
      obtain ⟨start, tip, T2, t2, h6, lo, hi, h7, h8⟩ := h5 r hr
      exact ⟨start, tip, T2, t2, h6.since (le_of_lt ht), lo, hi, by omega, h8⟩
    · obtain ⟨start, tip, T2, t2, f, h4, h5, h6, h7⟩ := h3 sc r t1 hp
      cases r with
      | false =>
        simp only
        refine ⟨by simp, fun r hr => ?_⟩
        cases hr
        have hf : f = tip.hash := by simpa using h6
        subst hf
        exact ⟨start, tip, T2, t2, h4, T2 + 2, t2, by have := h4.started; omega, le_refl _, h5⟩
      | true =>
        simp only
        obtain ⟨g1, g2⟩ := scan_spec s o m par fuel hsm hm n Unit (OMap.ofList [((), [])]) (sc.update.chain.txids.map Prod.snd) [] u64Max t1
        rcases hs : scan s o m par fuel n Unit (OMap.ofList [((), [])]) (sc.update.chain.txids.map Prod.snd) [] u64Max t1 with r2 | _ | _ | _
        · simp only
          refine ⟨by simp, fun r hr => ?_⟩
          cases hr
          obtain ⟨start', tip', T2', t2', h8, -⟩ := g2 r2 hs
          have a1 := h4.started
          have a2 := h4.order
          have a3 := h8.started
          have a4 := h8.order
          exact ⟨start', tip', T2', t2', h8.since (by omega), T2 + 2, t2, by omega, by omega, h5⟩
        · simp
        · exact absurd hs g1
        · simp
    · simp
    · exact absurd hp h1
    · simp

end Verif.Esplora
