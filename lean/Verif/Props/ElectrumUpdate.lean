import Verif.Model.ElectrumUpdate
import Verif.Props.Electrum
import Verif.Props.ChainGraph
import Verif.Props.Accessors

/-!
# Property C61: what is done with an electrum update
-/

namespace Verif.Electrum
open Verif Spec SparseChain Verif.Props

variable {K : Type} [LinearOrder K]

section
variable {P T : Type} [LinearOrder P] [ChainPosition P] [LawfulChainPosition P] [AsTransaction T] [LawfulTx T] [LinearOrder T]

/-- a consistent chain without a limit is one a caller can build -/
theorem reachable_of_agree {c : SparseChain P} (h : PositionsAgree c) (hl : c.checkpointLimit = none) : c.Reachable := by
  refine ⟨[], [.setCheckpointLimit c.checkpointLimit, .applyChangeset c.initialChangeset], ?_⟩
  have := rebuild (consistent_of_positionsAgree h) (fun n hn => by rw [hl] at hn; cases hn)
  rw [hl] at *
  exact this.symm

/-- **C61** `missing_full_txs` lists each transaction of the update that the graph does not have in full, once -/
theorem C61_missing_exact (e : ElectrumUpdate K P) (he : PositionsAgree e.chainUpdate) (g : TxGraph T) :
    (∀ x, x ∈ e.missingFullTxs g ↔ InChain e.chainUpdate x ∧ g.getTx x = none) ∧ (e.missingFullTxs g).Nodup := by
  constructor
  · intro x
    unfold ElectrumUpdate.missingFullTxs
    rw [List.mem_map]
    constructor
    · rintro ⟨⟨p, y⟩, h1, rfl⟩
      rw [List.mem_filter] at h1
      exact ⟨by unfold InChain; rw [(he.1 p y).1 h1.1]; simp, by simpa using h1.2⟩
    · rintro ⟨h1, h2⟩
      cases hp : e.chainUpdate.txPosition x with
      | none => exact absurd hp h1
      | some p => exact ⟨(p, x), List.mem_filter.2 ⟨(he.1 p x).2 hp, by simp [h2]⟩, rfl⟩
  · unfold ElectrumUpdate.missingFullTxs
    exact (he.2.2.sublist ((List.filter_sublist).map Prod.snd))

/-- **C61** `into_keychain_scan` keeps the update's chain and the last active indices; the chain graph has every transaction of
the update in full; and once the missing transactions have been fetched it can fail only because of a double spend -/
theorem C61_into_keychain_scan (e : ElectrumUpdate K P) (he : e.chainUpdate.Reachable) (cg : ChainGraph P T)
    (hcg : ChainGraph.Reachable cg) (newTxs : List T) (so : SpendOrder) :
    (∀ r, e.intoKeychainScan newTxs cg so = .ok r → r.update.chain = e.chainUpdate ∧ r.lastActiveIndices = e.lastActive ∧
      ChainGraph.Reachable r.update) ∧
    ((∀ x ∈ e.missingFullTxs cg.graph, ∃ t ∈ newTxs, (asTx t).txid = x) →
      ((∃ r, e.intoKeychainScan newTxs cg so = .ok r) ↔ NoDoubleSpend e.chainUpdate (cg.inflatedGraph e.chainUpdate newTxs)) ∧
      ∀ m, e.intoKeychainScan newTxs cg so ≠ .error (.missing m)) := by
  have hpa : PositionsAgree e.chainUpdate := by
    obtain ⟨l, ops, h⟩ := he
    rw [h]
    exact positionsAgree_of_consistent (run_consistent _ ops (fromCheckpoints_consistent l))
  have hC := C28_inflate_ok_iff cg hcg e.chainUpdate he newTxs so
  have hok : (∃ r, e.intoKeychainScan newTxs cg so = .ok r) ↔ ∃ r, cg.inflateUpdate e.chainUpdate newTxs so = .ok r := by
    unfold ElectrumUpdate.intoKeychainScan
    cases cg.inflateUpdate e.chainUpdate newTxs so <;> simp
  refine ⟨fun r hr => ?_, fun hall => ⟨?_, fun m hm => ?_⟩⟩
  · unfold ElectrumUpdate.intoKeychainScan at hr
    cases hi : cg.inflateUpdate e.chainUpdate newTxs so with
    | error err => rw [hi] at hr; cases hr
    | ok u =>
      rw [hi] at hr
      cases hr
      obtain ⟨h1, h2⟩ := hC.2 u hi
      exact ⟨h2, rfl, h1⟩
  · rw [hok, hC.1]
    refine and_iff_right ?_
    intro k hk
    cases hg : cg.graph.getTx k with
    | some x => exact Or.inl (by simp)
    | none => exact Or.inr (hall k (((C61_missing_exact e hpa cg.graph).1 k).2 ⟨hk, hg⟩))
  · unfold ElectrumUpdate.intoKeychainScan at hm
    cases hi : cg.inflateUpdate e.chainUpdate newTxs so with
    | ok u => rw [hi] at hm; cases hm
    | error err =>
      rw [hi] at hm
      cases hm
      have hgr : TxGraph.Reachable (cg.inflatedGraph e.chainUpdate newTxs) :=
        foldl_insertTx_reachable _ _ (foldl_insertTx_reachable _ _ .empty)
      have hnd := ((C28_new_error e.chainUpdate _ he hgr so).1 m hi).1
      obtain ⟨r, hr⟩ := hC.1.2 ⟨by
        intro k hk
        cases hg : cg.graph.getTx k with
        | some x => exact Or.inl (by simp)
        | none => exact Or.inr (hall k (((C61_missing_exact e hpa cg.graph).1 k).2 ⟨hk, hg⟩)), hnd⟩
      rw [hi] at hr; cases hr

/-- **C61** fetching from a server that answers a txid with the transaction of that txid fetches all that is missing, even when
the wallet's graph has grown between fetching and `into_keychain_scan` -/
theorem C61_fetch_completes (e : ElectrumUpdate K P) (he : PositionsAgree e.chainUpdate) (cg cg' : ChainGraph P T)
    (hgrow : ∀ x t, cg.graph.getTx x = some t → ∃ t', cg'.graph.getTx x = some t')
    (get : Txid → Option T) (hget : ∀ x t, get x = some t → (asTx t).txid = x) (newTxs : List T)
    (hf : e.fetch cg get = some newTxs) : ∀ x ∈ e.missingFullTxs cg'.graph, ∃ t ∈ newTxs, (asTx t).txid = x := by
  intro x hx
  obtain ⟨h1, h2⟩ := ((C61_missing_exact e he cg'.graph).1 x).1 hx
  have h3 : x ∈ e.missingFullTxs cg.graph := by
    rw [(C61_missing_exact e he cg.graph).1 x]
    refine ⟨h1, ?_⟩
    cases hg : cg.graph.getTx x with
    | none => rfl
    | some t => obtain ⟨t', ht'⟩ := hgrow x t hg; rw [h2] at ht'; cases ht'
  have gen : ∀ (l : List Txid) (r : List T), l.mapM get = some r → ∀ x ∈ l, ∃ t ∈ r, get x = some t := by
    intro l
    induction l with
    | nil => intro r _ x hx; cases hx
    | cons a l ih =>
      intro r hr x hx
      rw [List.mapM_cons] at hr
      cases ha : get a with
      | none => rw [ha] at hr; cases hr
      | some t =>
        rw [ha] at hr
        cases hl : l.mapM get with
        | none => rw [hl] at hr; cases hr
        | some r' =>
          rw [hl] at hr
          cases hr
          rcases List.mem_cons.1 hx with rfl | hx
          · exact ⟨t, List.mem_cons_self, ha⟩
          · obtain ⟨t', h1, h2⟩ := ih r' hl x hx
            exact ⟨t', List.mem_cons_of_mem _ h1, h2⟩
  obtain ⟨t, ht, hg⟩ := gen _ _ hf x h3
  exact ⟨t, ht, hget x t hg⟩

end

/-! ## block times -/

/-- the position with its block time -/
def withTime (time : Nat → Fin (2 ^ 64)) : TxHeight → ConfirmationTime
  | .confirmed h => .confirmed h (time h)
  | .unconfirmed => .unconfirmed

theorem lookup_mapM {f : Nat → Option (Fin (2 ^ 64))} : ∀ {l : List Nat} {r : List (Fin (2 ^ 64))}, l.mapM f = some r →
    ∀ h ∈ l, ∃ v, f h = some v ∧ (l.zip r).reverse.lookup h = some v := by
  have key : ∀ {l : List Nat} {r : List (Fin (2 ^ 64))}, l.mapM f = some r → (∀ e ∈ l.zip r, f e.1 = some e.2) ∧
      ∀ h ∈ l, ∃ e ∈ l.zip r, e.1 = h := by
    intro l
    induction l with
    | nil => intro r _; simp
    | cons a l ih =>
      intro r hr
      rw [List.mapM_cons] at hr
      cases ha : f a with
      | none => rw [ha] at hr; cases hr
      | some t =>
        rw [ha] at hr
        cases hl : l.mapM f with
        | none => rw [hl] at hr; cases hr
        | some r' =>
          rw [hl] at hr
          cases hr
          obtain ⟨h1, h2⟩ := ih hl
          constructor
          · intro e he
            rcases List.mem_cons.1 he with rfl | he
            · exact ha
            · exact h1 e he
          · intro h hh
            rcases List.mem_cons.1 hh with rfl | hh
            · exact ⟨(h, t), List.mem_cons_self, rfl⟩
            · obtain ⟨e, he, h3⟩ := h2 h hh
              exact ⟨e, List.mem_cons_of_mem _ he, h3⟩
  intro l r hr h hh
  obtain ⟨h1, h2⟩ := key hr
  cases hl : (l.zip r).reverse.lookup h with
  | none =>
    rw [List.lookup_eq_none_iff] at hl
    obtain ⟨e, he, h3⟩ := h2 h hh
    have := hl e (List.mem_reverse.2 he)
    simp [h3] at this
  | some v =>
    obtain ⟨l1, l2, h4, -⟩ := List.lookup_eq_some_iff.1 hl
    have hm : (h, v) ∈ l.zip r := by rw [← List.mem_reverse, h4]; simp
    exact ⟨v, h1 _ hm, rfl⟩

theorem timeLoop_spec {cps : Nat → Option BlockId} {tip : Nat} (times : List (Nat × Fin (2 ^ 64)))
    (ho : HashOrder (Txid × ConfirmationTime)) (time : Nat → Fin (2 ^ 64)) :
    ∀ (l : List (TxHeight × Txid)) (u : SparseChain ConfirmationTime), Upd u cps tip → (l.map Prod.snd).Nodup →
    (∀ e ∈ l, u.txPosition e.2 = none) →
    (∀ h x, (.confirmed h, x) ∈ l → h ≤ tip ∧ times.reverse.lookup h = some (time h)) →
    ∃ u', timeLoop times ho l u = some u' ∧ Upd u' cps tip ∧
      (∀ p x, (p, x) ∈ l → u'.txPosition x = some (withTime time p)) ∧
      ∀ x, (∀ p, (p, x) ∉ l) → u'.txPosition x = u.txPosition x := by
  intro l
  induction l with
  | nil => intro u hu _ _ _; exact ⟨u, rfl, hu, by simp, fun _ _ => rfl⟩
  | cons e l ih =>
    intro u hu hnd hfree hl
    obtain ⟨p, x⟩ := e
    rw [List.map_cons, List.nodup_cons] at hnd
    have hstep : ∀ q : ConfirmationTime, q = withTime time p → ∃ cs, (u.insertTx x q ho).2 = .ok cs ∧
        Upd (u.insertTx x q ho).1 cps tip ∧
        ∀ y, (u.insertTx x q ho).1.txPosition y = if y = x then some q else u.txPosition y := by
      intro q hq
      have hle : ∀ h, ChainPosition.height q = .confirmed h → h ≤ tip := by
        intro h hh
        subst hq
        cases p with
        | unconfirmed => cases hh
        | confirmed h' => cases hh; exact (hl h x List.mem_cons_self).1
      obtain ⟨h1, h2⟩ := insertTx_cases hu x q ho hle
      rcases h2 with ⟨cs, h3, h4⟩ | ⟨a, b, c, -, -, o, h, h5, -⟩
      · exact ⟨cs, h3, h1, h4⟩
      · rw [hfree (p, x) List.mem_cons_self] at h5; cases h5
    have hloop : timeLoop times ho ((p, x) :: l) u = timeLoop times ho l (u.insertTx x (withTime time p) ho).1 := by
      obtain ⟨cs, h1, -, -⟩ := hstep _ rfl
      cases p with
      | unconfirmed =>
        have h1' : (u.insertTx x .unconfirmed ho).2 = .ok cs := h1
        show (match u.insertTx x .unconfirmed ho with | (u', .ok _) => timeLoop times ho l u' | _ => none) = _
        rw [show u.insertTx x .unconfirmed ho = ((u.insertTx x .unconfirmed ho).1, .ok cs) from Prod.ext rfl h1']
        rfl
      | confirmed h =>
        have h1' : (u.insertTx x (.confirmed h (time h)) ho).2 = .ok cs := h1
        simp only [timeLoop]
        rw [(hl h x List.mem_cons_self).2]
        simp only
        rw [show u.insertTx x (.confirmed h (time h)) ho = ((u.insertTx x (.confirmed h (time h)) ho).1, .ok cs) from Prod.ext rfl h1']
        rfl
    obtain ⟨cs, -, h2, h3⟩ := hstep _ rfl
    have hfresh : ∀ e ∈ l, e.2 ≠ x := fun e he h => hnd.1 (List.mem_map.2 ⟨e, he, h⟩)
    obtain ⟨u', e1, e2, e3, e4⟩ := ih _ h2 hnd.2 (fun e he => by
        rw [h3, if_neg (hfresh e he)]; exact hfree e (List.mem_cons_of_mem _ he))
      (fun h y hy => hl h y (List.mem_cons_of_mem _ hy))
    refine ⟨u', hloop.trans e1, e2, ?_, ?_⟩
    · intro q y hy
      rcases List.mem_cons.1 hy with hy | hy
      · obtain ⟨rfl, rfl⟩ := Prod.mk.inj hy
        rw [e4 y (fun r hr => hfresh _ hr rfl), h3, if_pos rfl]
      · exact e3 q y hy
    · intro y hy
      rw [e4 y (fun r hr => hy r (List.mem_cons_of_mem _ hr)), h3, if_neg]
      rintro rfl
      exact hy p List.mem_cons_self

/-- **C61** `into_confirmation_time_update` of an update in which nothing is confirmed above the tip (as in every update that `scan`
returns) never panics.  It fails only if the server does not answer for the height of some confirmed transaction; otherwise
checkpoints and last active indices are kept, every transaction keeps its height and gets the block time the server gave for that
height, and unconfirmed ones stay unconfirmed. -/
theorem C61_confirmation_times (e : ElectrumUpdate K TxHeight) (hh : HeightsOk e.chainUpdate) (hp : PositionsAgree e.chainUpdate)
    (tip : Nat) (htip : IsTip e.chainUpdate tip) (hbelow : ∀ x h, e.chainUpdate.txPosition x = some (.confirmed h) → h ≤ tip)
    (s : Server) (ho : HashOrder (Txid × ConfirmationTime)) (t : Nat) :
    (e.intoConfirmationTime s ho t = .error ↔
      ∃ x h, e.chainUpdate.txPosition x = some (.confirmed h) ∧ s.headerTime t h = none) ∧
    ((∀ x h, e.chainUpdate.txPosition x = some (.confirmed h) → s.headerTime t h ≠ none) →
      ∃ r, e.intoConfirmationTime s ho t = .ok r ∧ r.lastActive = e.lastActive ∧
        r.chainUpdate.checkpoints = e.chainUpdate.checkpoints ∧ PositionsAgree r.chainUpdate ∧
        r.chainUpdate.checkpointLimit = none ∧ ∀ x, r.chainUpdate.txPosition x =
          (e.chainUpdate.txPosition x).map (withTime (fun h => (s.headerTime t h).getD 0))) := by
  have hr := C15_range_by_height e.chainUpdate hp .unbounded (.excluded .unconfirmed)
  cases hl : e.chainUpdate.rangeTxidsByHeight .unbounded (.excluded .unconfirmed) with
  | none => have := hr.1.1 hl; cases this
  | some l =>
    obtain ⟨-, hmem⟩ := hr.2 l hl
    have hconf : ∀ p x, (p, x) ∈ l ↔ ∃ h, p = .confirmed h ∧ e.chainUpdate.txPosition x = some (.confirmed h) := by
      intro p x
      rw [hmem]
      cases p with
      | unconfirmed =>
        constructor
        · rintro ⟨-, -, h2⟩
          exact absurd h2 (lt_irrefl (TxHeight.unconfirmed))
        · rintro ⟨h, h1, -⟩; cases h1
      | confirmed h =>
        constructor
        · rintro ⟨h1, -⟩; exact ⟨h, rfl, h1⟩
        · rintro ⟨h', h1, h2⟩
          cases h1
          refine ⟨h2, trivial, ?_⟩
          exact TxHeight.confirmed_lt_unconfirmed
    have hheights : ∃ hs, confirmedHeights e.chainUpdate = some hs ∧
        ∀ h, h ∈ hs ↔ ∃ x, e.chainUpdate.txPosition x = some (.confirmed h) := by
      unfold confirmedHeights
      rw [hl]
      simp only
      have gen : ∀ l' : List (TxHeight × Txid), (∀ e ∈ l', ∃ h, e.1 = .confirmed h) →
          ∃ hs, l'.mapM (fun e => match e.1 with | .confirmed h => some h | .unconfirmed => none) = some hs ∧
          ∀ h, h ∈ hs ↔ ∃ x, (TxHeight.confirmed h, x) ∈ l' := by
        intro l'
        induction l' with
        | nil => intro _; exact ⟨[], rfl, by simp⟩
        | cons a l' ih =>
          intro hc
          obtain ⟨hs, e1, e2⟩ := ih (fun e he => hc e (List.mem_cons_of_mem _ he))
          obtain ⟨h, hh⟩ := hc a List.mem_cons_self
          obtain ⟨p, x⟩ := a
          have hh' : p = .confirmed h := hh
          subst hh'
          refine ⟨h :: hs, by rw [List.mapM_cons, e1]; rfl, fun h' => ?_⟩
          rw [List.mem_cons, e2]
          constructor
          · rintro (rfl | ⟨y, hy⟩)
            · exact ⟨x, List.mem_cons_self⟩
            · exact ⟨y, List.mem_cons_of_mem _ hy⟩
          · rintro ⟨y, hy⟩
            rcases List.mem_cons.1 hy with hy | hy
            · cases hy; exact Or.inl rfl
            · exact Or.inr ⟨y, hy⟩
      obtain ⟨hs, e1, e2⟩ := gen l (fun e he => by obtain ⟨h, h1, -⟩ := (hconf e.1 e.2).1 he; exact ⟨h, h1⟩)
      refine ⟨hs, e1, fun h => ?_⟩
      rw [e2]
      constructor
      · rintro ⟨x, hx⟩
        obtain ⟨h', h1, h2⟩ := (hconf _ x).1 hx
        cases h1; exact ⟨x, h2⟩
      · rintro ⟨x, hx⟩; exact ⟨x, (hconf _ x).2 ⟨h, rfl, hx⟩⟩
    obtain ⟨hs, hhs, hhm⟩ := hheights
    have hcp0 : ∀ k, (SparseChain.fromCheckpoints (e.chainUpdate.checkpoints.entries.map (fun x => ⟨x.1, x.2⟩)) :
        SparseChain ConfirmationTime).checkpoints.get k = e.chainUpdate.checkpoints.get k := by
      intro k
      show (OMap.ofList ((e.chainUpdate.checkpoints.entries.map (fun x => (⟨x.1, x.2⟩ : BlockId))).map
        (fun b => (b.height, b.hash)))).get k = _
      rw [List.map_map]
      have : ((fun b : BlockId => (b.height, b.hash)) ∘ fun x : Nat × BlockHash => (⟨x.1, x.2⟩ : BlockId)) = id := rfl
      rw [this, List.map_id]
      cases hg : e.chainUpdate.checkpoints.get k with
      | none => exact OMap.get_ofList_none (fun v hv => by rw [OMap.mem_entries.1 hv] at hg; cases hg)
      | some v =>
        exact OMap.get_ofList_of_fun (fun w hw => by
          have := OMap.mem_entries.1 hw; rw [hg] at this; exact (Option.some.inj this).symm) (OMap.mem_entries.2 hg)
    have hcps := OMap.ext_get hcp0
    have hu0 : Upd (SparseChain.fromCheckpoints (e.chainUpdate.checkpoints.entries.map (fun x => ⟨x.1, x.2⟩)) :
        SparseChain ConfirmationTime) e.chainUpdate.checkpointAt tip := by
      have hat : ∀ k, (SparseChain.fromCheckpoints (e.chainUpdate.checkpoints.entries.map (fun x => ⟨x.1, x.2⟩)) :
        SparseChain ConfirmationTime).checkpointAt k = e.chainUpdate.checkpointAt k := by
        intro k; unfold SparseChain.checkpointAt; rw [hcps]
      refine ⟨⟨?_, fun x p h hx => by cases hx⟩, positionsAgree_of_consistent (fromCheckpoints_consistent _), rfl, hat, ?_,
        fun x p h hx => by cases hx⟩
      · rintro h ⟨b, hb⟩; rw [hat] at hb; exact hh.1 h ⟨b, hb⟩
      · refine ⟨?_, ?_⟩
        · obtain ⟨b, hb⟩ := htip.1; exact ⟨b, by rw [hat]; exact hb⟩
        · rintro h ⟨b, hb⟩; rw [hat] at hb; exact htip.2 h ⟨b, hb⟩
    have hmapM : hs.mapM (fun h => s.headerTime t h) = none ↔ ∃ h ∈ hs, s.headerTime t h = none := by
      clear hhs hhm
      induction hs with
      | nil => simp
      | cons a hs ih =>
        rw [List.mapM_cons]
        cases ha : s.headerTime t a with
        | none => simp [ha]
        | some v =>
          cases hm : hs.mapM (fun h => s.headerTime t h) with
          | none =>
            obtain ⟨h, h1, h2⟩ := ih.1 hm
            simp only [Option.bind_eq_bind, Option.bind_some, Option.bind_none, true_iff]
            exact ⟨h, List.mem_cons_of_mem _ h1, h2⟩
          | some r =>
            simp only [Option.bind_eq_bind, Option.bind_some]
            constructor
            · intro h; cases h
            · rintro ⟨h, h1, h2⟩
              rcases List.mem_cons.1 h1 with rfl | h1
              · rw [ha] at h2; cases h2
              · have := ih.2 ⟨h, h1, h2⟩; rw [hm] at this; cases this
    have hmain : ∀ ts, hs.mapM (fun h => s.headerTime t h) = some ts →
        ∃ u', timeLoop (hs.zip ts) ho e.chainUpdate.txids
          (SparseChain.fromCheckpoints (e.chainUpdate.checkpoints.entries.map (fun x => ⟨x.1, x.2⟩))) = some u' ∧
          Upd u' e.chainUpdate.checkpointAt tip ∧
          ∀ x, u'.txPosition x = (e.chainUpdate.txPosition x).map (withTime (fun h => (s.headerTime t h).getD 0)) := by
      intro ts hts
      obtain ⟨u', e1, e2, e3, e4⟩ := timeLoop_spec (hs.zip ts) ho (fun h => (s.headerTime t h).getD 0) e.chainUpdate.txids _ hu0
        hp.2.2 (fun _ _ => rfl) (fun h x hx => by
          have hpos := (hp.1 _ x).1 hx
          obtain ⟨v, hv1, hv2⟩ := lookup_mapM hts h ((hhm h).2 ⟨x, hpos⟩)
          exact ⟨hbelow x h hpos, by rw [hv2, hv1]; rfl⟩)
      refine ⟨u', e1, e2, fun x => ?_⟩
      cases hx : e.chainUpdate.txPosition x with
      | some p => exact e3 p x ((hp.1 p x).2 hx)
      | none => exact e4 x (fun p hm => by rw [(hp.1 p x).1 hm] at hx; cases hx)
    constructor
    · unfold ElectrumUpdate.intoConfirmationTime
      rw [hhs]
      simp only
      cases hts : hs.mapM (fun h => s.headerTime t h) with
      | none =>
        simp only [true_iff]
        obtain ⟨h, h1, h2⟩ := hmapM.1 hts
        obtain ⟨x, hx⟩ := (hhm h).1 h1
        exact ⟨x, h, hx, h2⟩
      | some ts =>
        obtain ⟨u', e1, -, -⟩ := hmain ts hts
        simp only
        rw [e1]
        simp only [reduceCtorEq, false_iff]
        rintro ⟨x, h, h1, h2⟩
        have := hmapM.2 ⟨h, (hhm h).2 ⟨x, h1⟩, h2⟩
        rw [hts] at this; cases this
    · intro hall
      cases hts : hs.mapM (fun h => s.headerTime t h) with
      | none =>
        obtain ⟨h, h1, h2⟩ := hmapM.1 hts
        obtain ⟨x, hx⟩ := (hhm h).1 h1
        exact absurd h2 (hall x h hx)
      | some ts =>
        obtain ⟨u', e1, e2, e3⟩ := hmain ts hts
        refine ⟨⟨u', e.lastActive⟩, ?_, rfl, ?_, e2.pos, e2.lim, e3⟩
        · unfold ElectrumUpdate.intoConfirmationTime
          rw [hhs]; simp only; rw [hts]; simp only; rw [e1]
        · refine OMap.ext_get (fun k => ?_)
          have := e2.cp k
          unfold SparseChain.checkpointAt at this
          show u'.checkpoints.get k = _
          cases ha : u'.checkpoints.get k <;> cases hb : e.chainUpdate.checkpoints.get k <;> rw [ha, hb] at this <;>
            simp at this
          rw [this]

/-- **C61** in particular, the update returned by a scan, whatever the server answered, can be given its block times without a panic -/
theorem C61_scan_then_times (s : Server) (ho : Order) (m : OMap Nat BlockHash) (hm : ∀ h x, m.get h = some x → h < u32Max)
    (ks : OMap K (List (Nat × Script))) (txids : List Txid) (ops : List OutPoint) (gap bs n t : Nat)
    (hsmall : ∀ t b, s.tip t = some b → b.height < u32Max) (hout : ∀ t x tx, s.tx t x = .ok tx → tx.output ≠ [])
    (r : ElectrumUpdate K TxHeight) (hr : scan s ho m ks txids ops gap bs n t = .ok r) (ho' : HashOrder (Txid × ConfirmationTime))
    (t' : Nat) :
    (r.chainUpdate.Reachable ∧ r.intoConfirmationTime s ho' t' = .error ∧
      ∃ x h, r.chainUpdate.txPosition x = some (.confirmed h) ∧ s.headerTime t' h = none) ∨
    ∃ q, r.intoConfirmationTime s ho' t' = .ok q ∧ q.chainUpdate.Reachable ∧ r.chainUpdate.Reachable := by
  obtain ⟨tip, T, t2, hf⟩ := (scan_spec s ho m hsmall hout hm ks txids ops gap bs n t).2 r hr
  have hu := hf.upd
  have hre := reachable_of_agree hu.pos hu.lim
  obtain ⟨h1, h2⟩ := C61_confirmation_times r hu.heights hu.pos tip hu.isTip (fun x h hx => hu.below x _ h hx rfl) s ho' t'
  by_cases hall : ∀ x h, r.chainUpdate.txPosition x = some (.confirmed h) → s.headerTime t' h ≠ none
  · obtain ⟨q, e1, e2, e3, e4, e5, -⟩ := h2 hall
    exact Or.inr ⟨q, e1, reachable_of_agree e4 e5, hre⟩
  · left
    push Not at hall
    obtain ⟨x, h, hx, hn⟩ := hall
    exact ⟨hre, h1.2 ⟨x, h, hx, hn⟩, x, h, hx, hn⟩

/-- **C61** `scan_without_keychain` has no stop gap: with a server that does not change, the update contains exactly the transactions in
the histories of all the given scripts, of the txids and of the outpoints -/
theorem C61_scan_without_keychain (s : Server) (w : World) (hs : s.Shows w) (hw : w.Sound) (ops : List OutPoint)
    (hcomp : w.Complete ops) (ho : Order) (m : OMap Nat BlockHash) (hm : ∀ h x, m.get h = some x → h ≤ w.tip.height)
    (spks : List Script) (hlen : spks.length ≤ u64Max) (txids : List Txid) (bs : Nat) (hbs : 0 < bs) (n t : Nat) :
    ∃ u, scanWithoutKeychain s ho m spks txids ops bs (n + 1) t = .ok u ∧
      ∀ x p, u.txPosition x = some p ↔ ∃ raw, ((∃ k ∈ spks, (x, raw) ∈ w.history k) ∨ FoundByTxid w txids x raw ∨
        FoundByOutpoint w ops x raw) ∧ IsHeightOf raw w.tip.height x p := by
  have hget : ∀ k l, (OMap.ofList [((), spks.zipIdx.map (fun e => (e.2, e.1)))] : OMap Unit (List (Nat × Script))).get k = some l →
      l = spks.zipIdx.map (fun e => (e.2, e.1)) := by
    intro k l h
    have := OMap.ofList_mem h
    simpa using this
  obtain ⟨r, h1, h2, -⟩ := C50_scan_complete s w hs hw ops hcomp ho m hm
    (OMap.ofList [((), spks.zipIdx.map (fun e => (e.2, e.1)))]) (by
      intro k l h
      rw [hget k l h, List.map_map]
      have : (Prod.fst ∘ fun e : Script × Nat => (e.2, e.1)) = Prod.snd := rfl
      rw [this, List.zipIdx_map_snd]
      exact List.nodup_range') txids u64Max bs hbs n t
  refine ⟨r.chainUpdate, by unfold scanWithoutKeychain; rw [h1], fun x p => ?_⟩
  rw [h2]
  refine exists_congr (fun raw => and_congr_left (fun _ => or_congr_left ?_))
  unfold FoundByScript
  constructor
  · rintro ⟨k, l, i, e, h3, -, h5, h6⟩
    rw [hget k l h3, List.getElem?_map, Option.map_eq_some_iff] at h5
    obtain ⟨a, h7, rfl⟩ := h5
    rw [List.getElem?_zipIdx, Option.map_eq_some_iff] at h7
    obtain ⟨b, h8, rfl⟩ := h7
    exact ⟨b, List.mem_of_getElem? h8, h6⟩
  · rintro ⟨k, hk, h3⟩
    obtain ⟨i, hi, rfl⟩ := List.getElem_of_mem hk
    refine ⟨(), _, i, (i, spks[i]), rfl, ⟨by simpa using hi, ?_⟩, ?_, h3⟩
    · rintro ⟨j, hj, -⟩
      omega
    · rw [List.getElem?_map, List.getElem?_zipIdx, List.getElem?_eq_getElem hi]
      simp

/-! ### a concrete update -/

/-- an update with transactions 0 and 2 for a wallet that has only the former -/
example : (⟨exUpdChain, OMap.ofList [(0, 4)]⟩ : ElectrumUpdate Nat TxHeight).missingFullTxs exCG.graph = [dId 2] ∧
    (match (⟨exUpdChain, OMap.ofList [(0, 4)]⟩ : ElectrumUpdate Nat TxHeight).intoKeychainScan [d 2] exCG (fun _ => HashOrder.id _) with
      | .ok r => r.lastActiveIndices.entries | .error _ => []) = [(0, 4)] ∧
    exUpdChain.Reachable ∧ PositionsAgree exUpdChain ∧ IsTip exUpdChain 8 := by
  refine ⟨by decide +kernel, by decide +kernel, ⟨_, _, rfl⟩, C04_positions_agree_from_checkpoints _ _, ?_⟩
  exact (latestCheckpoint_eq.1 (show exUpdChain.latestCheckpoint = some ⟨8, 18⟩ by decide +kernel)).1

/-- the scan of the example world: its positions, and the positions once the block times (all 0) are known -/
example : (match scan (twoWorlds exWorld exWorld 0) (HashOrder.id _) exLocal exSpks [] [] 1 2 3 0 with
    | .ok r => (r.chainUpdate.txids, match r.intoConfirmationTime (twoWorlds exWorld exWorld 0) (HashOrder.id _) 9 with
      | .ok q => q.chainUpdate.txids | _ => [])
    | _ => ([], [])) =
    ([(.confirmed 3, 1), (.unconfirmed, 2)], [(.confirmed 3 0, 1), (.unconfirmed, 2)]) := by decide +kernel

end Verif.Electrum
