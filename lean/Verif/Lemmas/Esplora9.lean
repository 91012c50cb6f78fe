import Verif.Lemmas.Esplora8

/-! The scan depends only on the answers of the server at the times of its requests -/

namespace Verif.Esplora
open Verif Spec
variable {T : Type} [LinearOrder T] [AsTransaction T]

/-- the two servers give the same answers at time `τ` -/
structure Same (s s' : Server T) (τ : Nat) : Prop where
  blockHash : s'.blockHash τ = s.blockHash τ
  height : s'.height τ = s.height τ
  tipHash : s'.tipHash τ = s.tipHash τ
  txs : s'.txs τ = s.txs τ
  tx : s'.tx τ = s.tx τ
  status : s'.status τ = s.status τ
  outputStatus : s'.outputStatus τ = s.outputStatus τ

/-- the same answers at all times from `t` until just before `t'` -/
def SameIn (s s' : Server T) (t t' : Nat) : Prop := ∀ τ, t ≤ τ → τ < t' → Same s s' τ

theorem SameIn.sub {s s' : Server T} {t t' a b : Nat} (h : SameIn s s' t t') (h1 : t ≤ a) (h2 : b ≤ t') : SameIn s s' a b :=
  fun τ h3 h4 => h τ (h1.trans h3) (lt_of_lt_of_le h4 h2)

variable {s s' : Server T}

theorem checkpointLoop_same (o : Orders ConfirmationTime T) : ∀ (l : List (Nat × BlockHash)) (u : Update T) (t : Nat) (r : Update T × Nat),
    checkpointLoop s o l u t = .ok r → t ≤ r.2 ∧ (SameIn s s' t r.2 → checkpointLoop s' o l u t = .ok r)
  | [], u, t, r, h => by
    simp only [checkpointLoop] at h ⊢
    cases h
    exact ⟨le_refl _, fun _ => rfl⟩
  | (h, x) :: l, u, t, r, hr => by
    simp only [checkpointLoop] at hr ⊢
    cases hb : s.blockHash t h with
    | none => rw [hb] at hr; cases hr
    | some hash =>
      rw [hb] at hr
      simp only at hr
      rcases hi : u.insertCheckpoint ⟨h, hash⟩ o with ⟨u', _ | _ | _⟩ <;> rw [hi] at hr <;> try cases hr
      simp only at hr
      by_cases e : hash = x
      · rw [if_pos e] at hr
        cases hr
        refine ⟨Nat.le_succ t, fun hs => ?_⟩
        rw [(hs t (le_refl _) (Nat.lt_succ_self t)).blockHash, hb]
        simp only
        rw [hi]
        simp only
        rw [if_pos e]
      · rw [if_neg e] at hr
        obtain ⟨h1, h2⟩ := checkpointLoop_same o l u' (t + 1) r hr
        refine ⟨by omega, fun hs => ?_⟩
        rw [(hs t (le_refl _) (by omega)).blockHash, hb]
        simp only
        rw [hi]
        simp only
        rw [if_neg e]
        exact h2 (hs.sub (by omega) (le_refl _))

theorem pageLoop_same {t : Nat} (hs : Same s s' t) (i : Nat) (spk : Script) : ∀ (n page : Nat) (acc : List (ETx T)),
    pageLoop s' t i spk n page acc = pageLoop s t i spk n page acc
  | 0, _, _ => rfl
  | n + 1, page, acc => by
    simp only [pageLoop]
    rw [hs.txs]
    cases acc.getLast? with
    | none => rfl
    | some e =>
      simp only
      cases s.txs t i page spk (some e.txid) with
      | none => rfl
      | some l => simp only; rw [pageLoop_same hs i spk n]

theorem batch_same {t : Nat} (hs : Same s s' t) (fuel : Nat) (l : List (Nat × Script)) : batch s' fuel t l = batch s fuel t l := by
  unfold batch
  refine List.map_congr_left fun e _ => ?_
  unfold relatedTxs
  rw [hs.txs]
  cases s.txs t e.2 0 e.1.2 none with
  | none => rfl
  | some l => simp only; rw [pageLoop_same hs]

theorem batchLoop_same (o : Orders ConfirmationTime T) (tip stopGap par fuel : Nat) : ∀ (n : Nat) (spks : List (Nat × Script))
    (st : KState T) (t : Nat) (r : KState T × Nat), batchLoop s o tip stopGap par fuel n spks st t = .ok r →
    t ≤ r.2 ∧ (SameIn s s' t r.2 → batchLoop s' o tip stopGap par fuel n spks st t = .ok r)
  | 0, _, _, _, r, h => by cases h
  | n + 1, spks, st, t, r, h => by
    simp only [batchLoop] at h ⊢
    rcases hh : handleLoop o tip (batch s fuel t (spks.take par)) st with st' | _ | _ | _ <;> rw [hh] at h <;> try cases h
    simp only at h
    split at h
    · rename_i hc
      cases h
      refine ⟨Nat.le_succ t, fun hs => ?_⟩
      rw [batch_same (hs t (le_refl _) (Nat.lt_succ_self t)), hh]
      simp only
      rw [if_pos hc]
    · rename_i hc
      obtain ⟨h1, h2⟩ := batchLoop_same o tip stopGap par fuel n _ _ _ r h
      refine ⟨by omega, fun hs => ?_⟩
      rw [batch_same (hs t (le_refl _) (by omega)), hh]
      simp only
      rw [if_neg hc]
      exact h2 (hs.sub (by omega) (le_refl _))

variable {K : Type} [LinearOrder K]

theorem keychainLoop_same (o : Orders ConfirmationTime T) (tip stopGap par fuel : Nat) : ∀ (l : List (K × List (Nat × Script)))
    (u : Update T) (la : OMap K Nat) (t : Nat) (r : (Update T × OMap K Nat) × Nat),
    keychainLoop s o tip stopGap par fuel l u la t = .ok r →
    t ≤ r.2 ∧ (SameIn s s' t r.2 → keychainLoop s' o tip stopGap par fuel l u la t = .ok r)
  | [], u, la, t, r, h => by
    simp only [keychainLoop] at h ⊢
    cases h
    exact ⟨le_refl _, fun _ => rfl⟩
  | (k, spks) :: l, u, la, t, r, h => by
    simp only [keychainLoop] at h ⊢
    rcases hh : batchLoop s o tip stopGap par fuel (spks.length + 1) spks ⟨u, none, 0⟩ t with ⟨st, t'⟩ | _ | _ | _ <;>
      rw [hh] at h <;> try cases h
    simp only at h
    obtain ⟨h1, h2⟩ := batchLoop_same (s' := s') o tip stopGap par fuel _ _ _ _ _ hh
    obtain ⟨h3, h4⟩ := keychainLoop_same o tip stopGap par fuel l _ _ _ r h
    simp only at h1 h2
    refine ⟨h1.trans h3, fun hs => ?_⟩
    rw [h2 (hs.sub (le_refl _) h3)]
    exact h4 (hs.sub h1 (le_refl _))

theorem lookup_same {t : Nat} (hs : Same s s' t) (hs' : Same s s' (t + 1)) (x : Txid) : lookup s' t x = lookup s t x := by
  unfold lookup
  rw [hs.tx, hs'.status]

theorem txidLoop_same (o : Orders ConfirmationTime T) (tip : Nat) : ∀ (l : List Txid) (u : Update T) (t : Nat) (r : Update T × Nat),
    txidLoop s o tip l u t = .ok r → t ≤ r.2 ∧ (SameIn s s' t r.2 → txidLoop s' o tip l u t = .ok r)
  | [], u, t, r, h => by
    simp only [txidLoop] at h ⊢
    cases h
    exact ⟨le_refl _, fun _ => rfl⟩
  | x :: l, u, t, r, h => by
    simp only [txidLoop] at h ⊢
    rcases hh : lookup s t x with (_ | e) | _ | _ | _ <;> rw [hh] at h <;> try cases h
    · simp only at h
      obtain ⟨h1, h2⟩ := txidLoop_same o tip l _ _ r h
      refine ⟨by omega, fun hs => ?_⟩
      rw [lookup_same (hs t (le_refl _) (by omega)) (hs (t + 1) (by omega) (by omega)), hh]
      exact h2 (hs.sub (by omega) (le_refl _))
    · simp only at h
      rcases hp : putAll o tip [e] u with u' | _ | _ | _ <;> rw [hp] at h <;> try cases h
      simp only at h
      obtain ⟨h1, h2⟩ := txidLoop_same o tip l _ _ r h
      refine ⟨by omega, fun hs => ?_⟩
      rw [lookup_same (hs t (le_refl _) (by omega)) (hs (t + 1) (by omega) (by omega)), hh]
      simp only
      rw [hp]
      exact h2 (hs.sub (by omega) (le_refl _))

theorem outpointTxs_same {t : Nat} {op : OutPoint} {r : List (T × Status) × Nat} (h : outpointTxs s t op = .ok r) :
    t ≤ r.2 ∧ (SameIn s s' t r.2 → outpointTxs s' t op = .ok r) := by
  unfold outpointTxs at h ⊢
  rcases hh : lookup s t op.txid with (_ | e) | _ | _ | _ <;> rw [hh] at h <;> try cases h
  · refine ⟨by show t ≤ t + 2; omega, fun hs => ?_⟩
    rw [lookup_same (hs t (le_refl _) (by show t < t + 2; omega)) (hs (t + 1) (by omega) (by show t + 1 < t + 2; omega)), hh]
  · simp only at h
    have key : t + 3 ≤ r.2 → SameIn s s' t r.2 → lookup s' t op.txid = .ok (some e) ∧ s'.outputStatus (t + 2) = s.outputStatus (t + 2) := by
      intro h1 hs
      refine ⟨?_, (hs (t + 2) (by omega) (by omega)).outputStatus⟩
      rw [lookup_same (hs t (le_refl _) (by omega)) (hs (t + 1) (by omega) (by omega)), hh]
    rcases ho : s.outputStatus (t + 2) op.txid op.vout.val with _ | _ | ⟨_ | y, _ | st⟩ <;> rw [ho] at h <;> try cases h
    · refine ⟨by show t ≤ t + 3; omega, fun hs => ?_⟩
      obtain ⟨k1, k2⟩ := key (le_refl _) hs
      rw [k1]; simp only; rw [k2, ho]
    · refine ⟨by show t ≤ t + 3; omega, fun hs => ?_⟩
      obtain ⟨k1, k2⟩ := key (le_refl _) hs
      rw [k1]; simp only; rw [k2, ho]
    · refine ⟨by show t ≤ t + 3; omega, fun hs => ?_⟩
      obtain ⟨k1, k2⟩ := key (le_refl _) hs
      rw [k1]; simp only; rw [k2, ho]
    · refine ⟨by show t ≤ t + 3; omega, fun hs => ?_⟩
      obtain ⟨k1, k2⟩ := key (le_refl _) hs
      rw [k1]; simp only; rw [k2, ho]
    · simp only at h
      rcases hx : s.tx (t + 3) y with _ | _ | tx <;> rw [hx] at h <;> try cases h
      all_goals
        refine ⟨by show t ≤ t + 4; omega, fun hs => ?_⟩
        obtain ⟨k1, k2⟩ := key (by show t + 3 ≤ t + 4; omega) hs
        rw [k1]; simp only; rw [k2, ho]; simp only
        rw [(hs (t + 3) (by omega) (by show t + 3 < t + 4; omega)).tx, hx]

theorem outpointLoop_same (o : Orders ConfirmationTime T) (tip : Nat) : ∀ (l : List OutPoint) (u : Update T) (t : Nat) (r : Update T × Nat),
    outpointLoop s o tip l u t = .ok r → t ≤ r.2 ∧ (SameIn s s' t r.2 → outpointLoop s' o tip l u t = .ok r)
  | [], u, t, r, h => by
    simp only [outpointLoop] at h ⊢
    cases h
    exact ⟨le_refl _, fun _ => rfl⟩
  | op :: l, u, t, r, h => by
    simp only [outpointLoop] at h ⊢
    rcases hh : outpointTxs s t op with ⟨txs, t'⟩ | _ | _ | _ <;> rw [hh] at h <;> try cases h
    simp only at h
    rcases hp : putAll o tip txs u with u' | _ | _ | _ <;> rw [hp] at h <;> try cases h
    simp only at h
    obtain ⟨h1, h2⟩ := outpointTxs_same (s' := s') hh
    obtain ⟨h3, h4⟩ := outpointLoop_same o tip l _ _ r h
    simp only at h1 h2
    refine ⟨h1.trans h3, fun hs => ?_⟩
    rw [h2 (hs.sub (le_refl _) h3)]
    simp only
    rw [hp]
    exact h4 (hs.sub h1 (le_refl _))

/-- what a pass comes to when the server gives the same answers up to the final check -/
theorem pass_same (o : Orders ConfirmationTime T) (m : OMap Nat BlockHash) (ks : OMap K (List (Nat × Script))) (txids : List Txid)
    (ops : List OutPoint) (gap par fuel t : Nat) {sc : KeychainScan K ConfirmationTime T} {b : Bool} {t' : Nat} {tip : BlockId}
    (h : pass s o m ks txids ops gap par fuel t = .ok (.done sc b t')) (hl : sc.update.chain.latestCheckpoint = some tip) :
    ∃ t1, t' = t1 + 1 ∧ t ≤ t1 ∧ ∀ s' : Server T, SameIn s s' t t1 → pass s' o m ks txids ops gap par fuel t =
      match s'.blockHash t1 tip.height with
      | none => .error
      | some h => .ok (.done sc (decide (h ≠ tip.hash)) (t1 + 1)) := by
  unfold pass at h
  rcases h1 : checkpointLoop s o m.entries.reverse ChainGraph.empty t with ⟨u, ta⟩ | _ | _ | _ <;> rw [h1] at h <;> try cases h
  simp only at h
  rcases h2 : s.height ta with _ | height <;> rw [h2] at h <;> try cases h
  simp only at h
  rcases h3 : s.tipHash (ta + 1) with _ | hash <;> rw [h3] at h <;> try cases h
  simp only at h
  rcases h4 : u.insertCheckpoint ⟨height, hash⟩ o with ⟨u', _ | _ | _⟩ <;> rw [h4] at h <;> try cases h
  simp only at h
  unfold collect at h
  rcases h5 : keychainLoop s o height gap (max par 1) fuel ks.entries u' OMap.empty (ta + 2) with ⟨⟨u2, la⟩, tb⟩ | _ | _ | _ <;>
    rw [h5] at h <;> try cases h
  simp only at h
  rcases h6 : txidLoop s o height txids u2 tb with ⟨u3, tc⟩ | _ | _ | _ <;> rw [h6] at h <;> try cases h
  simp only at h
  rcases h7 : outpointLoop s o height ops u3 tc with ⟨u4, td⟩ | _ | _ | _ <;> rw [h7] at h <;> try cases h
  simp only at h
  rcases h8 : reorgOccurred s u4 td with ⟨r, te⟩ | _ | _ | _ <;> rw [h8] at h <;> try cases h
  simp only at hl
  unfold reorgOccurred at h8
  rw [hl] at h8
  simp only at h8
  rcases h9 : s.blockHash td tip.height with _ | x <;> rw [h9] at h8 <;> try cases h8
  have a1 := (checkpointLoop_same (s' := s) o _ _ _ _ h1).1
  have a2 := (keychainLoop_same (s' := s) o _ _ _ _ _ _ _ _ _ h5).1
  have a3 := (txidLoop_same (s' := s) o _ _ _ _ _ h6).1
  have a4 := (outpointLoop_same (s' := s) o _ _ _ _ _ h7).1
  simp only at a1 a2 a3 a4
  refine ⟨td, rfl, by omega, fun s' hs => ?_⟩
  unfold pass
  rw [(checkpointLoop_same o _ _ _ _ h1).2 (hs.sub (le_refl _) (by show ta ≤ td; omega))]
  simp only
  rw [(hs ta (by omega) (by omega)).height, h2]
  simp only
  rw [(hs (ta + 1) (by omega) (by omega)).tipHash, h3]
  simp only
  rw [h4]
  simp only
  unfold collect
  rw [(keychainLoop_same o _ _ _ _ _ _ _ _ _ h5).2 (hs.sub (by omega) (by show tb ≤ td; omega))]
  simp only
  rw [(txidLoop_same o _ _ _ _ _ h6).2 (hs.sub (by omega) (by show tc ≤ td; omega))]
  simp only
  rw [(outpointLoop_same o _ _ _ _ _ h7).2 (hs.sub (by omega) (by show td ≤ td; omega))]
  simp only
  unfold reorgOccurred
  rw [hl]
  simp only
  cases s'.blockHash td tip.height <;> rfl

theorem switch_before {s1 s2 : Server T} {n t : Nat} (h : t < n) : Same s1 (switch s1 s2 n) t := by
  constructor <;> simp [switch, h]

theorem switch_after {s1 s2 : Server T} {n t : Nat} (h : n ≤ t) : Same s2 (switch s1 s2 n) t := by
  have h' : ¬ t < n := by omega
  constructor <;> simp [switch, h']

/-- a scan allowed one pass that finishes -/
theorem scan_one (o : Orders ConfirmationTime T) (m : OMap Nat BlockHash) (par fuel : Nat) (K : Type) [LinearOrder K]
    (ks : OMap K (List (Nat × Script))) (txids : List Txid) (ops : List OutPoint) (gap t : Nat) {r : KeychainScan K ConfirmationTime T}
    (h : scan s o m par fuel 1 K ks txids ops gap t = .ok r) : ∃ t', pass s o m ks txids ops gap par fuel t = .ok (.done r false t') := by
  simp only [scan] at h
  rcases hp : pass s o m ks txids ops gap par fuel t with (_ | ⟨sc, _ | _, t'⟩) | _ | _ | _ <;> rw [hp] at h <;> cases h
  exact ⟨_, rfl⟩

theorem Has.exact [LawfulTx T] {w : World T} {cps : Nat → Option BlockId} {S : Txid → Prop} {u : Update T} (h2 : Has w cps S u)
    (x : Txid) (p : ConfirmationTime) (y : T) : (u.chain.txPosition x = some p ∧ u.graph.getTx x = some y) ↔
      S x ∧ ∃ pl, w.find x = some (y, pl) ∧ p = positionOf pl := by
  have hi := ChainGraph.reachable_inv h2.upd.reach
  rw [h2.pos]
  constructor
  · rintro ⟨⟨hS, e, he, rfl⟩, hy⟩
    obtain ⟨pl, hpl⟩ := h2.graph x y hy
    rw [he] at hpl
    cases hpl
    exact ⟨hS, pl, he, rfl⟩
  · rintro ⟨hS, pl, hpl, rfl⟩
    refine ⟨⟨hS, _, hpl, rfl⟩, ?_⟩
    obtain ⟨y', hy'⟩ := hi.full x (by unfold InChain; rw [(h2.pos x (positionOf pl)).2 ⟨hS, _, hpl, rfl⟩]; simp)
    obtain ⟨pl', hpl'⟩ := h2.graph x y' hy'
    rw [hpl] at hpl'
    cases hpl'
    exact hy'

end Verif.Esplora
