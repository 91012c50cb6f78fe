import Verif.Lemmas.Electrum3
import Mathlib.Data.List.Nodup
import Mathlib.Order.Bounds.Basic

/-! # Lemmas about the electrum scan: a whole scan of a server that does not change -/

namespace Verif.Electrum
open Verif Spec SparseChain Verif.Props

variable {w : World} {s : Server}

section
variable {I : Type} [LinearOrder I]

theorem noteScanned_get {l : List (I × Script)} (hl : (l.map Prod.fst).Nodup) (i : I) (v : Script × Bool) :
    (noteScanned w OMap.empty l).get i = some v ↔ ∃ spk, (i, spk) ∈ l ∧ v = (spk, decide (w.history spk ≠ [])) := by
  have he : noteScanned w OMap.empty l = OMap.ofList (l.map (fun e => (e.1, (e.2, decide (w.history e.2 ≠ []))))) := by
    unfold noteScanned OMap.ofList
    rw [List.foldl_map]
  rw [he]
  constructor
  · intro h
    have := OMap.ofList_mem h
    rw [List.mem_map] at this
    obtain ⟨⟨i', spk⟩, h1, h2⟩ := this
    cases h2
    exact ⟨spk, h1, rfl⟩
  · rintro ⟨spk, h1, rfl⟩
    refine OMap.get_ofList_of_fun ?_ (List.mem_map.2 ⟨(i, spk), h1, rfl⟩)
    intro v' hv'
    rw [List.mem_map] at hv'
    obtain ⟨⟨i', spk'⟩, h2, h3⟩ := hv'
    simp only [Prod.mk.injEq] at h3
    have h4 : ((i, spk) : I × Script) = (i', spk') := List.inj_on_of_nodup_map hl h1 h2 h3.1.symm
    rw [← h3.2, (Prod.mk.inj h4).2]
end

variable {K : Type} [LinearOrder K]

theorem scannedInto_get (k : K) (m : OMap Nat (Script × Bool)) (sc : OMap (K ×ₗ Nat) (Script × Bool)) (k' : K) (i : Nat) :
    (m.entries.foldl (fun m e => m.insert (toLex (k, e.1)) e.2) sc).get (toLex (k', i)) =
      if k' = k then (m.get i).or (sc.get (toLex (k', i))) else sc.get (toLex (k', i)) := by
  by_cases e : k' = k
  · subst e
    rw [if_pos rfl]
    rw [OMap.foldl_entries m (fun (m : OMap (K ×ₗ Nat) (Script × Bool)) e => m.insert (toLex (k', e.1)) e.2)
      (fun m i => m.get (toLex (k', i))) (fun _ v _ => some v) sc]
    · cases m.get i <;> rfl
    · intro s a v b
      simp only [OMap.get_insert]
      by_cases e : b = a
      · rw [if_pos e, if_pos (by rw [e])]
      · rw [if_neg e, if_neg]
        intro h
        have h' : (k', b) = (k', a) := h
        exact e (Prod.mk.inj h').2
  · rw [if_neg e]
    generalize m.entries = l
    induction l generalizing sc with
    | nil => rfl
    | cons a l ih =>
      rw [List.foldl_cons, ih, OMap.get_insert, if_neg]
      intro h
      have h' : (k', i) = (k, a.1) := h
      exact e (Prod.mk.inj h').1

/-- scripts scanned of one keychain -/
def taken (w : World) (gap : Nat) (l : List (Nat × Script)) : List (Nat × Script) := l.take (reach w gap 0 l)

theorem keychainLoop_static {cps : Nat → Option BlockId} {tip : Nat} {pos : Txid → TxHeight} (hs : s.Shows w)
    (hpos : PosFn w tip pos) (ho : Order) (gap bs : Nat) (hbs : 0 < bs) :
    ∀ (l : List (K × List (Nat × Script))) (u : Update) (sc : OMap (K ×ₗ Nat) (Script × Bool)) (t : Nat),
    Upd u cps tip → AllPos (fun x p => p = pos x) u → (l.map Prod.fst).Nodup →
    (∀ e ∈ l, (e.2.map Prod.fst).Nodup) → (∀ e ∈ l, ∀ i, sc.get (toLex (e.1, i)) = none) →
    ∃ st u' t', keychainLoop s ho gap bs l u sc t = ((st, u'), .ok (), t') ∧
      st.requests.map Prod.fst = l.map Prod.fst ∧
      (∀ k i v, st.scanned.get (toLex (k, i)) = some v ↔ sc.get (toLex (k, i)) = some v ∨
        ∃ spks spk, (k, spks) ∈ l ∧ (i, spk) ∈ taken w gap spks ∧ v = (spk, decide (w.history spk ≠ []))) ∧
      Adds cps tip pos u u' (fun x => ∃ e ∈ l, InHist w (taken w gap e.2) x)
  | [], u, sc, t, hu, ht, _, _, _ =>
    ⟨⟨[], sc⟩, u, t, rfl, rfl, fun k i v => by simp, Adds.refl hu ht (by simp)⟩
  | (k, spks) :: l, u, sc, t, hu, ht, hnd, hnd2, hsc => by
    obtain ⟨u1, rest, t1, h1, h2⟩ := populateWithSpks_static hs hpos hu ht ho spks gap bs hbs t
    rw [List.map_cons, List.nodup_cons] at hnd
    have hnotin : ∀ e ∈ l, e.1 ≠ k := fun e he h => hnd.1 (List.mem_map.2 ⟨e, he, h⟩)
    obtain ⟨st, u', t', h3, h4, h5, h6⟩ := keychainLoop_static hs hpos ho gap bs hbs l u1
      ((noteScanned w OMap.empty (spks.take (reach w gap 0 spks))).entries.foldl
        (fun m e => m.insert (toLex (k, e.1)) e.2) sc) t1 h2.upd h2.true hnd.2
      (fun e he => hnd2 e (List.mem_cons_of_mem _ he))
      (fun e he i => by
        rw [scannedInto_get, if_neg (hnotin e he)]
        exact hsc e (List.mem_cons_of_mem _ he) i)
    simp only [keychainLoop, h1, h3]
    refine ⟨_, u', t', rfl, by simp [h4], ?_, h2.trans h6 ?_⟩
    · intro k' i v
      simp only
      rw [h5, scannedInto_get]
      have hnd3 : ((spks.take (reach w gap 0 spks)).map Prod.fst).Nodup := by
        rw [List.map_take]
        exact (hnd2 _ List.mem_cons_self).sublist (List.take_sublist _ _)
      by_cases e : k' = k
      · subst e
        rw [if_pos rfl, hsc _ List.mem_cons_self i, Option.or_none, noteScanned_get hnd3]
        constructor
        · rintro (⟨spk, h7, h8⟩ | ⟨sp, spk, h7, h8⟩)
          · exact .inr ⟨spks, spk, List.mem_cons_self, h7, h8⟩
          · exact absurd rfl (hnotin _ h7)
        · rintro (h7 | ⟨sp, spk, h7, h8, h9⟩)
          · cases h7
          · rcases List.mem_cons.1 h7 with h7 | h7
            · cases h7; exact .inl ⟨spk, h8, h9⟩
            · exact absurd rfl (hnotin _ h7)
      · rw [if_neg e]
        refine or_congr Iff.rfl ?_
        constructor
        · rintro ⟨sp, spk, h7, h8⟩
          exact ⟨sp, spk, List.mem_cons_of_mem _ h7, h8⟩
        · rintro ⟨sp, spk, h7, h8⟩
          rcases List.mem_cons.1 h7 with h7 | h7
          · cases h7; exact absurd rfl e
          · exact ⟨sp, spk, h7, h8⟩
    · intro x
      simp only [List.mem_cons, exists_eq_or_imp]
      exact Iff.rfl

theorem prepareUpdate_static (hs : s.Shows w) (hw : w.Sound) (ho : Order) (m : OMap Nat BlockHash)
    (hm : ∀ h x, m.get h = some x → h ≤ w.tip.height) (n t : Nat) :
    ∃ u t', prepareUpdate s ho m (n + 1) t = (.ok u, t') ∧ Upd u u.checkpointAt w.tip.height ∧
      (∀ x, u.txPosition x = none) ∧ u.latestCheckpoint = some w.tip ∧
      (∀ h b, u.checkpointAt h = some b → w.header h = some b.hash) ∧
      Connects m u.checkpointAt := by
  have hsm : SmallTips s := fun t b h => by rw [hs.1] at h; cases h; exact hw.small
  have hsmall : ∀ h x, m.get h = some x → h < u32Max := fun h x hx => by
    have := hm h x hx; have := hw.small; omega
  have hta : TipsAbove s m := fun t b h x h1 h2 => by rw [hs.1] at h1; cases h1; exact hm h x h2
  have hspec := prepareUpdate_spec s ho m hsm hsmall (n + 1) t
  obtain ⟨h1, h2⟩ := prepareLoop_spec s ho m.entries.reverse SparseChain.empty t prep_empty (local_desc m)
    (fun _ _ h hh => absurd hh (not_hasCp_empty h)) (fun e he => hsmall _ _ (mem_local.1 he))
  have hok : ∃ u' t', prepareUpdate s ho m (n + 1) t = (.ok u', t') ∧ ∃ t'' , s.tip t'' = some w.tip ∧
      u'.checkpointAt w.tip.height = some w.tip := by
    simp only [prepareUpdate]
    rcases hp : prepareLoop s ho m.entries.reverse SparseChain.empty t with ⟨o, t1⟩
    rw [hp] at h1 h2
    rcases h2 with ⟨u, hu⟩ | ⟨-, t', e, he, hno⟩
    · simp only at hu h1
      subst hu
      obtain ⟨h3, -, h4, -⟩ := h1 u rfl
      simp only [hs.1]
      rcases insertCp_cases h3 w.tip hw.small ho with ⟨⟨x, hx, hne⟩, -⟩ | ⟨-, ⟨cs, hcs⟩, -, hcp⟩
      · have hat := (latestCheckpoint_eq.1 hx).2
        rcases h4 _ _ hat with h5 | ⟨⟨t', h5⟩, -⟩
        · exact absurd ⟨_, h5⟩ (not_hasCp_empty _)
        · rw [hs.2.1] at h5
          rw [hw.tip_header] at h5
          exact absurd (Option.some.inj h5).symm hne
      · rcases hi : u.insertCheckpoint w.tip ho with ⟨u1, r⟩
        rw [hi] at hcs hcp
        simp only at hcs hcp
        subst hcs
        exact ⟨u1, t1 + 1, rfl, 0, trivial, by rw [hcp, if_pos rfl]⟩
    · rw [hs.2.1] at hno
      obtain ⟨x, hx⟩ := (hw.headers e.1).2 (hm _ _ (mem_local.1 he))
      rw [hx] at hno; cases hno
  obtain ⟨u, t', he, -, -, hat⟩ := hok
  rw [he] at hspec
  obtain ⟨-, -, hspec⟩ := hspec
  obtain ⟨tip, h3, h4, h5, h6⟩ := hspec u rfl
  have hhdr : ∀ h b, u.checkpointAt h = some b → w.header h = some b.hash := by
    intro h b hb
    rcases h5 h b hb with ⟨t'', h7⟩ | ⟨⟨t'', h7⟩, -⟩
    · rw [hs.1] at h7; cases h7
      rw [← checkpointAt_height hb]; exact hw.tip_header
    · rw [hs.2.1] at h7; exact h7
  have htip : IsTip u w.tip.height := by
    refine ⟨⟨_, hat⟩, ?_⟩
    rintro h ⟨b, hb⟩
    exact (hw.headers h).1 ⟨_, hhdr h b hb⟩
  have htt : tip = w.tip.height :=
    le_antisymm (htip.2 _ h3.isTip.1) (h3.isTip.2 _ htip.1)
  subst htt
  exact ⟨u, t', he, h3, h4, latestCheckpoint_eq.2 ⟨htip, hat⟩, hhdr, h6 hta⟩

theorem inHist_taken {gap : Nat} {l : List (Nat × Script)} {x : Txid} :
    InHist w (taken w gap l) x ↔ ∃ n e raw, Reached w gap l n ∧ l[n]? = some e ∧ (x, raw) ∈ w.history e.2 := by
  unfold InHist taken
  constructor
  · rintro ⟨e, h1, raw, h2⟩
    obtain ⟨n, h3⟩ := List.mem_iff_getElem?.1 h1
    rw [List.getElem?_take] at h3
    split at h3
    · next h4 => exact ⟨n, e, raw, reached_iff.2 h4, h3, h2⟩
    · cases h3
  · rintro ⟨n, e, raw, h1, h2, h3⟩
    refine ⟨e, List.mem_iff_getElem?.2 ⟨n, ?_⟩, raw, h3⟩
    rw [List.getElem?_take, if_pos (reached_iff.1 h1)]
    exact h2

theorem mem_taken {gap : Nat} {l : List (Nat × Script)} {e : Nat × Script} :
    e ∈ taken w gap l ↔ ∃ n, Reached w gap l n ∧ l[n]? = some e := by
  unfold taken
  rw [List.mem_iff_getElem?]
  refine exists_congr (fun n => ?_)
  rw [List.getElem?_take, reached_iff]
  constructor
  · intro h
    split at h
    · next h4 => exact ⟨h4, h⟩
    · cases h
  · rintro ⟨h1, h2⟩
    rw [if_pos h1]; exact h2

theorem lastActiveOf_eq (sc : OMap (K ×ₗ Nat) (Script × Bool)) (k : K) (i : Nat) :
    lastActiveOf sc k = some i ↔ (∃ spk, sc.get (toLex (k, i)) = some (spk, true)) ∧
      ∀ j spk, sc.get (toLex (k, j)) = some (spk, true) → j ≤ i := by
  have he : ((sc.entries.filter (fun e => decide ((ofLex e.1).1 = k))).reverse.find? (fun e => e.2.2)) =
      (sc.filter (fun a v => v.2 && decide ((ofLex a).1 = k))).last? := by
    unfold OMap.last? OMap.filter
    rw [← List.head?_filter, List.filter_reverse, List.head?_reverse, List.filter_filter]
  unfold lastActiveOf
  rw [he]
  constructor
  · intro h
    rw [Option.map_eq_some_iff] at h
    obtain ⟨⟨a, v⟩, h1, h2⟩ := h
    rw [OMap.last?_eq_some] at h1
    simp only [OMap.get_filter, Option.filter_eq_some_iff, Bool.and_eq_true, decide_eq_true_eq] at h1
    obtain ⟨⟨h3, h4, h5⟩, h6⟩ := h1
    have ha : a = toLex (k, i) := by
      rw [← h5, ← h2]; rfl
    obtain ⟨spk, b⟩ := v
    simp only at h4
    subst h4
    refine ⟨⟨spk, ha ▸ h3⟩, fun j spk' hj => ?_⟩
    have := h6 (toLex (k, j)) (spk', true) ⟨hj, rfl, rfl⟩
    rw [ha, Prod.Lex.toLex_le_toLex] at this
    rcases this with h | h
    · exact absurd h (lt_irrefl _)
    · exact h.2
  · rintro ⟨⟨spk, h1⟩, h2⟩
    rw [Option.map_eq_some_iff]
    refine ⟨(toLex (k, i), (spk, true)), ?_, rfl⟩
    rw [OMap.last?_eq_some]
    simp only [OMap.get_filter, Option.filter_eq_some_iff, Bool.and_eq_true, decide_eq_true_eq]
    refine ⟨⟨h1, trivial, rfl⟩, ?_⟩
    rintro a ⟨spk', b⟩ ⟨h3, h4, h5⟩
    simp only at h4
    subst h4
    have ha : a = toLex (k, (ofLex a).2) := by rw [← h5]; rfl
    rw [ha] at h3 ⊢
    rw [Prod.Lex.toLex_le_toLex]
    exact .inr ⟨rfl, h2 _ _ h3⟩

theorem lastActiveIndices_get (reqs : List (K × List (Nat × Script))) (sc : OMap (K ×ₗ Nat) (Script × Bool)) (k : K)
    (i : Nat) : (lastActiveIndices reqs sc).get k = some i ↔ k ∈ reqs.map Prod.fst ∧ lastActiveOf sc k = some i := by
  unfold lastActiveIndices
  have hmem : ∀ i, (k, i) ∈ reqs.filterMap (fun e => (lastActiveOf sc e.1).map (fun i => (e.1, i))) ↔
      k ∈ reqs.map Prod.fst ∧ lastActiveOf sc k = some i := by
    intro i
    rw [List.mem_filterMap]
    constructor
    · rintro ⟨e, h1, h2⟩
      rw [Option.map_eq_some_iff] at h2
      obtain ⟨j, h3, h4⟩ := h2
      cases h4
      exact ⟨List.mem_map.2 ⟨e, h1, rfl⟩, h3⟩
    · rintro ⟨h1, h2⟩
      obtain ⟨e, h3, rfl⟩ := List.mem_map.1 h1
      exact ⟨e, h3, by rw [h2]; rfl⟩
  constructor
  · intro h
    exact (hmem i).1 (OMap.ofList_mem h)
  · intro h
    refine OMap.get_ofList_of_fun ?_ ((hmem i).2 h)
    intro v' hv'
    have := ((hmem v').1 hv').2
    rw [h.2] at this
    exact (Option.some.inj this).symm

theorem scriptPart_static {cps : Nat → Option BlockId} {tip : Nat} {pos : Txid → TxHeight} (hs : s.Shows w)
    (hpos : PosFn w tip pos) (ho : Order) (gap bs : Nat) (hbs : 0 < bs) (ks : OMap K (List (Nat × Script))) (u : Update)
    (t : Nat) (hu : Upd u cps tip) (ht : AllPos (fun x p => p = pos x) u)
    (hnd : ∀ k l, ks.get k = some l → (l.map Prod.fst).Nodup) :
    ∃ st u' t', scriptPart s ho gap bs ⟨ks.entries, OMap.empty⟩ u t = ((st, u'), .ok (), t') ∧
      st.requests.map Prod.fst = ks.keys ∧
      (∀ k i v, st.scanned.get (toLex (k, i)) = some v ↔ 
        ∃ spks spk, ks.get k = some spks ∧ (i, spk) ∈ taken w gap spks ∧ v = (spk, decide (w.history spk ≠ []))) ∧
      Adds cps tip pos u u' (fun x => ∃ raw, FoundByScript w gap ks x raw) := by
  obtain ⟨st, u', t', h1, h2, h3, h4⟩ := keychainLoop_static hs hpos ho gap bs hbs ks.entries u OMap.empty t hu ht
    ks.keys_nodup (fun e he => hnd e.1 e.2 (OMap.mem_entries.1 he)) (fun _ _ _ => rfl)
  have hfound : ∀ x, (∃ e ∈ ks.entries, InHist w (taken w gap e.2) x) ↔ ∃ raw, FoundByScript w gap ks x raw := by
    intro x
    unfold FoundByScript
    constructor
    · rintro ⟨e, h5, h6⟩
      obtain ⟨n, e', raw, h7, h8, h9⟩ := inHist_taken.1 h6
      exact ⟨raw, e.1, e.2, n, e', OMap.mem_entries.1 h5, h7, h8, h9⟩
    · rintro ⟨raw, k, l, n, e', h5, h7, h8, h9⟩
      exact ⟨(k, l), OMap.mem_entries.2 h5, inHist_taken.2 ⟨n, e', raw, h7, h8, h9⟩⟩
  by_cases he : ks.entries.isEmpty = true
  · have hnil : ks.entries = [] := List.isEmpty_iff.1 he
    refine ⟨⟨ks.entries, OMap.empty⟩, u, t, ?_, rfl, ?_, Adds.refl hu ht ?_⟩
    · unfold scriptPart
      rw [if_pos he]
    · intro k i v
      have : ∀ l, ks.get k ≠ some l := by
        intro l h
        have := OMap.mem_entries.2 h
        rw [hnil] at this; cases this
      constructor
      · intro h; cases h
      · rintro ⟨l, spk, h, -⟩; exact absurd h (this l)
    · rintro x hx
      obtain ⟨e, h5, -⟩ := (hfound x).2 hx
      rw [hnil] at h5; cases h5
  · refine ⟨st, u', t', ?_, h2, ?_, h4.upd, h4.true, fun x => by rw [h4.mem, hfound]⟩
    · unfold scriptPart
      rw [if_neg he]
      have : rescan s ho gap bs (OMap.empty : OMap (K ×ₗ Nat) (Script × Bool)) u t = ((OMap.empty, u), .ok (), t) := rfl
      simp only [this]
      exact h1
    · intro k i v
      rw [h3]
      constructor
      · rintro (h | ⟨l, spk, h5, h6⟩)
        · cases h
        · exact ⟨l, spk, OMap.mem_entries.1 h5, h6⟩
      · rintro ⟨l, spk, h5, h6⟩
        exact .inr ⟨l, spk, OMap.mem_entries.2 h5, h6⟩

theorem restOfRound_static {cps : Nat → Option BlockId} {pos : Txid → TxHeight} (hs : s.Shows w) (hw : w.Sound)
    {ops : List OutPoint} (hc : w.Complete ops) (ho : Order) (txids : List Txid) (u : Update) (t : Nat)
    (hpos : PosFn w w.tip.height pos) (hu : Upd u cps w.tip.height) (ht : AllPos (fun x p => p = pos x) u)
    (hcps : cps w.tip.height = some w.tip) :
    ∃ u' t', restOfRound s ho txids ops u t = (.ok u', t') ∧
      Adds cps w.tip.height pos u u' (fun x => ∃ raw, FoundByTxid w txids x raw ∨ FoundByOutpoint w ops x raw) := by
  obtain ⟨b, hb1, hb2, hb3⟩ := hu.latest
  obtain ⟨u1, t1, h1, h2⟩ := txidLoop_static hs hpos ho hc.outputs txids u t hu ht
  obtain ⟨b', hb1', hb2', hb3'⟩ := h2.upd.latest
  obtain ⟨u2, t2, h3, h4⟩ := outpointLoop_static hs hpos ho hc ops u1 OMap.empty t1 (fun _ h => h) h2.upd h2.true
    (fun x tx h => by cases h)
  obtain ⟨b'', hb1'', hb2'', hb3''⟩ := h4.upd.latest
  have e1 : populateWithTxids s ho u txids t = ((u1, .ok ()), t1) := by
    unfold populateWithTxids
    rw [hb1]; simp only; rw [hb2]; exact h1
  have e2 : populateWithOutpoints s ho u1 ops t1 = ((u2, .ok ()), t2) := by
    unfold populateWithOutpoints
    rw [hb1']; simp only; rw [hb2']; exact h3
  have e3 : finalCheck s u2 t2 = (.ok u2, t2 + 1) := by
    unfold finalCheck
    rw [hb1'']; simp only
    rw [hs.2.1, hb2'', hw.tip_header]
    simp only
    rw [hcps] at hb3''
    cases hb3''
    rw [if_pos rfl]
  refine ⟨u2, t2 + 1, ?_, h2.trans h4 ?_⟩
  · unfold restOfRound
    rw [e1]; simp only; rw [e2]; exact e3
  · intro x
    rw [← exists_or]

/-- the result of scanning a server that does not change -/
theorem scan_static (hs : s.Shows w) (hw : w.Sound) {ops : List OutPoint} (hc : w.Complete ops) (ho : Order)
    (m : OMap Nat BlockHash) (hm : ∀ h x, m.get h = some x → h ≤ w.tip.height) (ks : OMap K (List (Nat × Script)))
    (hnd : ∀ k l, ks.get k = some l → (l.map Prod.fst).Nodup) (txids : List Txid) (gap bs : Nat) (hbs : 0 < bs)
    (n t : Nat) :
    ∃ r, scan s ho m ks txids ops gap bs (n + 1) t = .ok r ∧
      Upd r.chainUpdate r.chainUpdate.checkpointAt w.tip.height ∧ r.chainUpdate.latestCheckpoint = some w.tip ∧
      (∀ h b, r.chainUpdate.checkpointAt h = some b → w.header h = some b.hash) ∧
      Connects m r.chainUpdate.checkpointAt ∧
      (∀ x p, r.chainUpdate.txPosition x = some p ↔ ∃ raw, (FoundByScript w gap ks x raw ∨ FoundByTxid w txids x raw ∨
        FoundByOutpoint w ops x raw) ∧ p = determineTxHeight raw w.tip.height x) ∧
      (∀ k i, r.lastActive.get k = some i ↔ IsGreatest {i | ∃ l n spk, ks.get k = some l ∧ Reached w gap l n ∧
        l[n]? = some (i, spk) ∧ w.history spk ≠ []} i) := by
  obtain ⟨pos, hpos⟩ := exists_posFn hw w.tip.height
  obtain ⟨u, t1, h1, h2, h3, h4, h5, h6⟩ := prepareUpdate_static hs hw ho m hm n t
  have htrue : AllPos (fun x p => p = pos x) u := fun x p h => by rw [h3] at h; cases h
  obtain ⟨st, u1, t2, h7, h8, h9, h10⟩ := scriptPart_static hs hpos ho gap bs hbs ks u t1 h2 htrue hnd
  have hcps : u.checkpointAt w.tip.height = some w.tip := (latestCheckpoint_eq.1 h4).2
  obtain ⟨u2, t3, h11, h12⟩ := restOfRound_static hs hw hc ho txids u1 t2 hpos h10.upd h10.true hcps
  have hfin : scan s ho m ks txids ops gap bs (n + 1) t = .ok ⟨u2, lastActiveIndices st.requests st.scanned⟩ := by
    unfold scan
    simp only [scanLoop, scanRound, h1, h7, h11]
  have hcp : u2.checkpointAt = u.checkpointAt := funext h12.upd.cp
  refine ⟨_, hfin, hcp ▸ h12.upd, ?_, ?_, ?_, ?_, ?_⟩
  · obtain ⟨b, hb1, hb2, hb3⟩ := h12.upd.latest
    rw [hcps] at hb3; cases hb3; exact hb1
  · simp only [hcp]; exact h5
  · simp only [hcp]; exact h6
  · intro x p
    have hraw : ∀ raw, (FoundByScript w gap ks x raw ∨ FoundByTxid w txids x raw ∨ FoundByOutpoint w ops x raw) →
        determineTxHeight raw w.tip.height x = pos x := by
      rintro raw (⟨k, l, n, e, -, -, -, h⟩ | ⟨-, tx, o, -, -, h⟩ | ⟨op, -, tx, o, -, -, h, -⟩) <;> exact hpos _ _ _ h
    have hex : u2.txPosition x = some (pos x) ↔ ∃ raw, FoundByScript w gap ks x raw ∨ FoundByTxid w txids x raw ∨
        FoundByOutpoint w ops x raw := by
      rw [h12.mem, h10.mem, h3]
      simp only [exists_or]
      simp
    simp only
    constructor
    · intro h
      have := h12.true x p h
      subst this
      obtain ⟨raw, h13⟩ := hex.1 h
      exact ⟨raw, h13, (hraw raw h13).symm⟩
    · rintro ⟨raw, h13, rfl⟩
      rw [hraw raw h13]
      exact hex.2 ⟨raw, h13⟩
  · intro k i
    simp only
    rw [lastActiveIndices_get, h8, lastActiveOf_eq]
    have hset : ∀ j, (∃ spk, st.scanned.get (toLex (k, j)) = some (spk, true)) ↔ ∃ l n spk, ks.get k = some l ∧ Reached w gap l n ∧
        l[n]? = some (j, spk) ∧ w.history spk ≠ [] := by
      intro j
      constructor
      · rintro ⟨spk, h⟩
        obtain ⟨l, spk', h13, h14, h15⟩ := (h9 k j _).1 h
        obtain ⟨n, h16, h17⟩ := mem_taken.1 h14
        simp only [Prod.mk.injEq] at h15
        exact ⟨l, n, spk', h13, h16, h17, by simpa using h15.2.symm⟩
      · rintro ⟨l, n, spk, h13, h14, h15, h16⟩
        exact ⟨spk, (h9 k j _).2 ⟨l, spk, h13, mem_taken.2 ⟨n, h14, h15⟩, by simp [h16]⟩⟩
    constructor
    · rintro ⟨-, h13, h14⟩
      refine ⟨(hset i).1 h13, ?_⟩
      intro j hj
      obtain ⟨spk, h15⟩ := (hset j).2 hj
      exact h14 j spk h15
    · rintro ⟨h13, h14⟩
      refine ⟨?_, (hset i).2 h13, fun j spk hj => h14 ((hset j).1 ⟨spk, hj⟩)⟩
      obtain ⟨l, n, spk, h15, -⟩ := h13
      exact OMap.mem_keys.2 ⟨l, h15⟩

end Verif.Electrum
