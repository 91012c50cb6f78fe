import Verif.Lemmas.Esplora7

/-! # Lemmas about the esplora scan: a whole scan of a server that does not change -/

namespace Verif.Esplora
open Verif Spec Verif.Props
variable {T : Type} [LinearOrder T] [AsTransaction T] [LawfulTx T]

/-- `x` is a transaction of a script of the list that is asked for -/
def ScriptFound (w : World T) (gap par : Nat) (l : List (Nat × Script)) (x : Txid) : Prop :=
  ∃ n e tx, Reached w gap par l n ∧ l[n]? = some e ∧ tx ∈ w.history e.2 ∧ (asTx tx.1).txid = x

/-- `i` is the index of the last script of the list that is asked for and has transactions -/
def LastActive (w : World T) (gap par : Nat) (l : List (Nat × Script)) (i : Nat) : Prop :=
  ∃ n spk, Reached w gap par l n ∧ l[n]? = some (i, spk) ∧ w.history spk ≠ [] ∧
    ∀ n' e, n < n' → Reached w gap par l n' → l[n']? = some e → w.history e.2 = []

section
variable {s : Server T} {w : World T} (hs : s.Shows w) (hw : w.Sound)
include hs hw
variable {cps : Nat → Option BlockId}

theorem keychainLoop_static {K : Type} [LinearOrder K] (o : Orders ConfirmationTime T) (gap par fuel : Nat) (hpar : 1 ≤ par) :
    ∀ (l : List (K × List (Nat × Script))) (S : Txid → Prop) (u : Update T) (la : OMap K Nat) (t : Nat),
    (∀ e ∈ l, ∀ e' ∈ e.2, (w.confirmed e'.2).length ≤ fuel) → (l.map Prod.fst).Nodup → (∀ e ∈ l, la.get e.1 = none) →
    Has w cps S u →
    ∃ u' la' t', keychainLoop s o w.tip.height gap par fuel l u la t = .ok ((u', la'), t') ∧
      Has w cps (fun x => S x ∨ ∃ e ∈ l, ScriptFound w gap par e.2 x) u' ∧
      ∀ k i, la'.get k = some i ↔ la.get k = some i ∨ ∃ spks, (k, spks) ∈ l ∧ LastActive w gap par spks i
  | [], S, u, la, t, _, _, _, hu => ⟨u, la, t, rfl, hu.congr (by simp), by simp⟩
  | (k, spks) :: l, S, u, la, t, hf, hn, hla, hu => by
    obtain ⟨st, t1, h1, h2, h3⟩ := scripts_static hs hw o gap par fuel hpar spks (hf _ List.mem_cons_self) S u t hu
    simp only [keychainLoop]
    rw [h1]
    simp only
    simp only [List.map_cons, List.nodup_cons] at hn
    have hla1 : ∀ k' i, (match st.lastActive with | some i => la.insert k i | none => la).get k' = some i ↔
        la.get k' = some i ∨ (k' = k ∧ LastActive w gap par spks i) := by
      intro k' i
      rcases hst : st.lastActive with _ | j
      · simp only
        constructor
        · exact .inl
        · rintro (h | ⟨-, h⟩)
          · exact h
          · rw [(h3 i).2 h] at hst; cases hst
      · simp only
        rw [OMap.get_insert]
        by_cases e : k' = k
        · rw [if_pos e, e, hla _ List.mem_cons_self]
          constructor
          · intro hj; cases hj; exact .inr ⟨rfl, (h3 _).1 hst⟩
          · rintro (h | ⟨-, h⟩)
            · cases h
            · rw [← hst]; exact (h3 i).2 h
        · rw [if_neg e]
          simp [e]
    obtain ⟨u', la', t', h4, h5, h6⟩ := keychainLoop_static o gap par fuel hpar l _ st.update _ t1
      (fun e he => hf e (List.mem_cons_of_mem _ he)) hn.2 (by
        intro e he
        by_contra hne
        obtain ⟨i, hi⟩ := Option.ne_none_iff_exists'.1 hne
        rcases (hla1 _ _).1 hi with h | ⟨h, -⟩
        · rw [hla e (List.mem_cons_of_mem _ he)] at h; cases h
        · exact hn.1 (by rw [← h]; exact List.mem_map_of_mem he)) h2
    refine ⟨u', la', t', h4, h5.congr ?_, ?_⟩
    · intro x
      simp only [List.mem_cons, exists_eq_or_imp]
      exact or_assoc
    · intro k' i
      rw [h6, hla1]
      simp only [List.mem_cons, Prod.mk.injEq]
      constructor
      · rintro ((h | ⟨h, h'⟩) | ⟨sp, h, h'⟩)
        · exact .inl h
        · exact .inr ⟨spks, .inl ⟨h, rfl⟩, h'⟩
        · exact .inr ⟨sp, .inr h, h'⟩
      · rintro (h | ⟨sp, ⟨h, rfl⟩ | h, h'⟩)
        · exact .inl (.inl h)
        · exact .inl (.inr ⟨h, h'⟩)
        · exact .inr ⟨sp, h, h'⟩

omit [LinearOrder T] [LawfulTx T] hw in
theorem lookup_static (t : Nat) (x : Txid) : lookup s t x = .ok ((w.find x).map fun e => (e.1, statusOf e.2)) := by
  unfold lookup
  rw [hs.tx]
  cases hx : w.find x with
  | none =>
    simp only [Option.map_none]
    cases hst : s.status (t + 1) x with
    | none => exact absurd hst (hs.status_ok _ _)
    | some st => rfl
  | some e =>
    simp only [Option.map_some]
    rw [hs.status _ _ _ hx]

theorem txidLoop_static (o : Orders ConfirmationTime T) : ∀ (l : List Txid) (S : Txid → Prop) (u : Update T) (t : Nat), Has w cps S u →
    ∃ u' t', txidLoop s o w.tip.height l u t = .ok (u', t') ∧ Has w cps (fun x => S x ∨ FoundByTxid w l x) u'
  | [], S, u, t, hu => ⟨u, t, rfl, hu.congr (by simp [FoundByTxid])⟩
  | x :: l, S, u, t, hu => by
    simp only [txidLoop]
    rw [lookup_static hs]
    cases hx : w.find x with
    | none =>
      simp only [Option.map_none]
      obtain ⟨u', t', h1, h2⟩ := txidLoop_static o l S u (t + 2) hu
      refine ⟨u', t', h1, h2.congr ?_⟩
      intro y
      unfold FoundByTxid
      refine or_congr_right ⟨fun ⟨a, b⟩ => ⟨List.mem_cons_of_mem _ a, b⟩, ?_⟩
      rintro ⟨a, e, he⟩
      rcases List.mem_cons.1 a with rfl | a
      · rw [hx] at he; cases he
      · exact ⟨a, e, he⟩
    | some e =>
      have hid := hw.found x e hx
      obtain ⟨u1, h1, h2⟩ := putAll_static hw o [e] hu (by
        intro e' he'
        rw [List.mem_singleton] at he'
        subst he'
        rw [hid]; exact hx)
      simp only [Option.map_some]
      simp only [List.map_cons, List.map_nil] at h1
      simp only [h1]
      obtain ⟨u', t', h3, h4⟩ := txidLoop_static o l _ u1 (t + 2) h2
      refine ⟨u', t', h3, h4.congr ?_⟩
      intro y
      unfold FoundByTxid
      simp only [List.mem_cons, List.not_mem_nil, or_false, exists_eq_left, hid]
      constructor
      · rintro ((h | h) | ⟨h, h'⟩)
        · exact .inl h
        · exact .inr ⟨.inl h.symm, e, by rw [← h]; exact hx⟩
        · exact .inr ⟨.inr h, h'⟩
      · rintro (h | ⟨rfl | h, h'⟩)
        · exact .inl (.inl h)
        · exact .inl (.inr rfl)
        · exact .inr ⟨h, h'⟩

omit [LinearOrder T] [LawfulTx T] in
theorem outpointTxs_static (t : Nat) (op : OutPoint) : ∃ (l : List (T × Place)) (t' : Nat),
    outpointTxs s t op = .ok (l.map fun e => (e.1, statusOf e.2), t') ∧ (∀ e ∈ l, w.find (asTx e.1).txid = some e) ∧
      ∀ x, (∃ e ∈ l, (asTx e.1).txid = x) ↔ (∃ e, w.find op.txid = some e) ∧ (x = op.txid ∨ w.spender op.txid op.vout.val = some x) := by
  unfold outpointTxs
  rw [lookup_static hs]
  cases hx : w.find op.txid with
  | none => exact ⟨[], t + 2, rfl, by simp, by simp⟩
  | some e =>
    have hid := hw.found _ e hx
    simp only [Option.map_some]
    cases hsp : w.spender op.txid op.vout.val with
    | none =>
      rcases hs.unspent (t + 2) op.txid op.vout.val hsp with h | ⟨st, h⟩
      · rw [h]
        refine ⟨[e], t + 3, rfl, ?_, ?_⟩
        · intro e' he'; rw [List.mem_singleton] at he'; subst he'; rw [hid]; exact hx
        · intro x; simp [hid, eq_comm]
      · rw [h]
        refine ⟨[e], t + 3, rfl, ?_, ?_⟩
        · intro e' he'; rw [List.mem_singleton] at he'; subst he'; rw [hid]; exact hx
        · intro x; simp [hid, eq_comm]
    | some y =>
      obtain ⟨e', he'⟩ := hw.spender_found _ _ y hsp
      have hid' := hw.found _ e' he'
      rw [hs.spent (t + 2) op.txid op.vout.val y e' hsp he']
      simp only
      rw [hs.tx, he']
      refine ⟨[e, e'], t + 4, rfl, ?_, ?_⟩
      · intro a ha
        simp only [List.mem_cons, List.not_mem_nil, or_false] at ha
        rcases ha with rfl | rfl
        · rw [hid]; exact hx
        · rw [hid']; exact he'
      · intro x
        simp [hid, hid', eq_comm]

theorem outpointLoop_static (o : Orders ConfirmationTime T) : ∀ (l : List OutPoint) (S : Txid → Prop) (u : Update T) (t : Nat),
    Has w cps S u →
    ∃ u' t', outpointLoop s o w.tip.height l u t = .ok (u', t') ∧ Has w cps (fun x => S x ∨ FoundByOutpoint w l x) u'
  | [], S, u, t, hu => ⟨u, t, rfl, hu.congr (by simp [FoundByOutpoint])⟩
  | op :: l, S, u, t, hu => by
    simp only [outpointLoop]
    obtain ⟨txs, t1, h1, h2, h3⟩ := outpointTxs_static hs hw t op
    rw [h1]
    obtain ⟨u1, h4, h5⟩ := putAll_static hw o txs hu h2
    simp only [h4]
    obtain ⟨u', t', h6, h7⟩ := outpointLoop_static o l _ u1 t1 h5
    refine ⟨u', t', h6, h7.congr ?_⟩
    intro x
    unfold FoundByOutpoint
    rw [h3]
    simp only [List.mem_cons, exists_eq_or_imp]
    exact or_assoc

/-- one scan of a server that does not change -/
theorem scan_static (o : Orders ConfirmationTime T) (m : OMap Nat BlockHash) (hm : ∀ h x, m.get h = some x → h ≤ w.tip.height)
    (par fuel n : Nat) (K : Type) [LinearOrder K] (ks : OMap K (List (Nat × Script)))
    (hf : ∀ k l, ks.get k = some l → ∀ e ∈ l, (w.confirmed e.2).length ≤ fuel) (txids : List Txid) (ops : List OutPoint)
    (gap t : Nat) :
    ∃ r, scan s o m par fuel (n + 1) K ks txids ops gap t = .ok r ∧
      r.update.chain.latestCheckpoint = some w.tip ∧
      (∀ h b, r.update.chain.checkpointAt h = some b → w.header h = some b.hash) ∧
      Has w r.update.chain.checkpointAt (fun x => FoundByScript w gap (max par 1) ks x ∨ FoundByTxid w txids x ∨ FoundByOutpoint w ops x) r.update ∧
      ∀ k i, r.lastActiveIndices.get k = some i ↔ ∃ l, ks.get k = some l ∧ LastActive w gap (max par 1) l i := by
  simp only [scan]
  unfold pass
  rcases checkpointLoop_spec s o m.entries.reverse ChainGraph.empty t cprep_empty (Electrum.local_desc m)
      (fun _ _ h hh => absurd hh (Electrum.not_hasCp_empty h))
      (fun e he => lt_of_le_of_lt (hm _ _ (Electrum.mem_local.1 he)) hw.small) with
    ⟨u, t1, h1, h2, h3, -, h4, h5⟩ | ⟨h1, t', e, -, he, hno⟩
  · rw [h1]
    simp only
    rw [hs.height, hs.tipHash]
    simp only
    have hhead : ∀ h b, u.chain.checkpointAt h = some b → w.header h = some b.hash := by
      intro h b hb
      rcases h4 h b hb with h6 | ⟨⟨t', -, h6⟩, -⟩
      · exact absurd ⟨_, h6⟩ (Electrum.not_hasCp_empty h)
      · rw [hs.blockHash] at h6; exact h6
    rcases insertCp_cases h3 ⟨w.tip.height, w.tip.hash⟩ hw.small o with ⟨⟨x, hx, hne⟩, -⟩ | ⟨-, u1, cs, hi, hp, hcp⟩
    · have := hhead _ _ (Electrum.latestCheckpoint_eq.1 hx).2
      rw [hw.tip_header] at this
      cases this
      exact absurd rfl hne
    · rw [hi]
      simp only at hcp ⊢
      have hcp1 : ∀ h b, u1.chain.checkpointAt h = some b → w.header h = some b.hash := by
        intro h b hb
        rw [hcp] at hb
        by_cases e : h = w.tip.height
        · rw [if_pos e] at hb; cases hb; rw [e]; exact hw.tip_header
        · rw [if_neg e] at hb; exact hhead h b hb
      have hhas : u1.chain.checkpointAt w.tip.height = some w.tip := by rw [hcp, if_pos rfl]
      have htip : IsTip u1.chain w.tip.height :=
        ⟨⟨_, hhas⟩, fun h' ⟨b, hb⟩ => (hw.headers h').1 ⟨_, hcp1 h' b hb⟩⟩
      have hu1 : Has w u1.chain.checkpointAt (fun _ => False) u1 :=
        ⟨⟨hp.reach, ⟨hp.prep.heightsOk, hp.prep.pos, hp.prep.lim, fun _ => rfl, htip,
          fun x p h hx => by rw [hp.prep.none] at hx; cases hx⟩⟩,
          fun x y hy => by rw [hp.noTx] at hy; simp [TxGraph.getTx, TxGraph.empty] at hy,
          fun x p => by rw [hp.prep.none]; simp⟩
      unfold collect
      obtain ⟨u2, la, t2, k1, k2, k3⟩ := keychainLoop_static hs hw (K := K) o gap (max par 1) fuel (le_max_right _ _) ks.entries _ u1 OMap.empty
        (t1 + 2) (fun e he => hf e.1 e.2 (OMap.mem_entries.1 he)) ks.keys_nodup (fun _ _ => rfl) hu1
      rw [k1]
      simp only
      obtain ⟨u3, t3, k4, k5⟩ := txidLoop_static hs hw o txids _ u2 t2 k2
      rw [k4]
      simp only
      obtain ⟨u4, t4, k6, k7⟩ := outpointLoop_static hs hw o ops _ u3 t3 k5
      rw [k6]
      simp only
      obtain ⟨b, hb, hb1, hb2⟩ := k7.upd.upd.latest
      rw [hhas] at hb2
      cases hb2
      unfold reorgOccurred
      rw [hb]
      simp only
      rw [hs.blockHash, hw.tip_header]
      have hcps : u4.chain.checkpointAt = u1.chain.checkpointAt := funext k7.upd.upd.cp
      refine ⟨⟨u4, la⟩, by simp, hb, ?_, ?_, ?_⟩
      · intro h b hb
        rw [hcps] at hb
        exact hcp1 h b hb
      · rw [hcps]
        refine k7.congr fun x => ?_
        unfold FoundByScript ScriptFound
        constructor
        · rintro (((h | ⟨e, he, n, e', tx, h⟩) | h) | h)
          · cases h
          · exact .inl ⟨e.1, e.2, n, e', tx, OMap.mem_entries.1 he, h⟩
          · exact .inr (.inl h)
          · exact .inr (.inr h)
        · rintro (⟨k, l, n, e', tx, hk, h⟩ | h | h)
          · exact .inl (.inl (.inr ⟨(k, l), OMap.mem_entries.2 hk, n, e', tx, h⟩))
          · exact .inl (.inr h)
          · exact .inr h
      · intro k i
        rw [k3]
        simp only [OMap.get_empty, OMap.mem_entries]
        simp
  · have := (hw.headers e.1).2 (hm _ _ (Electrum.mem_local.1 he))
    rw [hs.blockHash] at hno
    rw [hno] at this
    obtain ⟨x, hx⟩ := this
    cases hx

end
end Verif.Esplora
