import Verif.Lemmas.SyncElectrum2

/-!
# With any electrum server, a scan for outpoints succeeds only if the server delivers their transactions
-/

namespace Verif.Electrum
open Verif Spec

/-- the server delivered the transaction of every outpoint -/
def Delivered (s : Server) (ops : List OutPoint) : Prop := ∀ op ∈ ops, ∃ t tx, s.tx t op.txid = .ok tx

theorem outpointLoop_delivered (s : Server) (ho : Order) (tip : Nat) : ∀ (ops : List OutPoint) (u : Update) (full : OMap Txid Tx) (t : Nat)
    (u' : Update) (t' : Nat), outpointLoop s ho tip ops u full t = ((u', .ok ()), t') → Delivered s ops := by
  intro ops
  induction ops with
  | nil => intro u full t u' t' _ op hop; cases hop
  | cons op l ih =>
    intro u full t u' t' h
    simp only [outpointLoop] at h
    cases hx : s.tx t op.txid with
    | protocolErr => rw [hx] at h; cases h
    | otherErr => rw [hx] at h; cases h
    | ok tx =>
      rw [hx] at h
      simp only at h
      have hl : Delivered s l := by
        cases ho' : tx.output[op.vout.val]? with
        | none => rw [ho'] at h; exact ih _ _ _ _ _ h
        | some o =>
          rw [ho'] at h
          simp only at h
          cases hh : s.history (t + 1) o.spk with
          | none => rw [hh] at h; cases h
          | some hist =>
            rw [hh] at h
            simp only at h
            rcases hp : opLoop s ho tip op tx hist ⟨u, full, false, false, t + 2⟩ with ⟨st, _ | _ | _ | _ | _⟩ <;> rw [hp] at h
            · exact ih _ _ _ _ _ h
            all_goals cases h
      intro op' hop
      rcases List.mem_cons.1 hop with rfl | hop
      · exact ⟨t, tx, hx⟩
      · exact hl op' hop

theorem restOfRound_delivered {s : Server} {ho : Order} {txids : List Txid} {ops : List OutPoint} {u u' : Update} {t t' : Nat}
    (h : restOfRound s ho txids ops u t = (.ok u', t')) : Delivered s ops := by
  unfold restOfRound at h
  rcases hp : populateWithTxids s ho u txids t with ⟨⟨u1, _ | _ | _ | _ | _⟩, t1⟩ <;> rw [hp] at h
  · simp only at h
    rcases hq : populateWithOutpoints s ho u1 ops t1 with ⟨⟨u2, _ | _ | _ | _ | _⟩, t2⟩ <;> rw [hq] at h
    · unfold populateWithOutpoints at hq
      cases hl : u1.latestCheckpoint with
      | none => rw [hl] at hq; cases hq
      | some tip => rw [hl] at hq; exact outpointLoop_delivered s ho _ _ _ _ _ _ _ hq
    all_goals cases h
  all_goals cases h

variable {K : Type} [LinearOrder K]

theorem scanLoop_delivered (s : Server) (ho : Order) (m : OMap Nat BlockHash) (txids : List Txid) (ops : List OutPoint) (gap bs : Nat) :
    ∀ (n : Nat) (st : ScanState K) (t : Nat) (r : ScanState K × Update), scanLoop s ho m txids ops gap bs n st t = .ok r → Delivered s ops := by
  intro n
  induction n with
  | zero => intro st t r h; cases h
  | succ n ih =>
    intro st t r h
    simp only [scanLoop] at h
    rcases hp : scanRound s ho m txids ops gap bs (n + 1) st t with ⟨st1, u | _ | _ | _ | _, t1⟩ <;> rw [hp] at h
    · unfold scanRound at hp
      rcases hq : prepareUpdate s ho m (n + 1) t with ⟨u2 | _ | _ | _ | _, t2⟩ <;> rw [hq] at hp
      · simp only at hp
        rcases hr : scriptPart s ho gap bs st u2 t2 with ⟨⟨st3, u3⟩, _ | _ | _ | _ | _, t3⟩ <;> rw [hr] at hp
        · simp only at hp
          have := (Prod.ext_iff.1 hp).2
          exact restOfRound_delivered this
        all_goals cases hp
      all_goals cases hp
    · exact ih _ _ _ h
    all_goals cases h

theorem scanWithoutKeychain_delivered {s : Server} {ho : Order} {m : OMap Nat BlockHash} {spks : List Script} {txids : List Txid}
    {ops : List OutPoint} {bs n t : Nat} {u : Update} (h : scanWithoutKeychain s ho m spks txids ops bs n t = .ok u) : Delivered s ops := by
  unfold scanWithoutKeychain scan at h
  cases hp : scanLoop s ho m txids ops u64Max bs n
    ⟨(OMap.ofList [((), spks.zipIdx.map (fun e => (e.2, e.1)))] : OMap Unit (List (Nat × Script))).entries, OMap.empty⟩ t with
  | ok r => exact scanLoop_delivered s ho m txids ops _ bs n _ t r hp
  | _ => rw [hp] at h; cases h

end Verif.Electrum

namespace Verif.Sync
open Verif Spec Props SparseChain ChainGraph
variable {K D T : Type} [LinearOrder K] [DescriptorOps D] [DecidableEq D] [LinearOrder T] [AsTransaction T] [LawfulTx T]

omit [DecidableEq D] [LawfulTx T] in
theorem electrumFinish_ok {t : Tracker K D TxHeight T} {o : Orders TxHeight T} {so : SpendOrder} {get : Txid → Option T}
    {r : Electrum.Out (Electrum.ElectrumUpdate K TxHeight)} {x} (h : electrumFinish t o so get r = .ok x) :
    ∃ e txs sc, r = .ok e ∧ e.fetch t.chainGraph get = some txs ∧ e.intoKeychainScan txs t.chainGraph so = .ok sc ∧
      t.applyUpdate sc o = some x := by
  unfold electrumFinish at h
  cases r with
  | ok e =>
    simp only at h
    cases hf : e.fetch t.chainGraph get with
    | none => rw [hf] at h; cases h
    | some txs =>
      rw [hf] at h
      simp only at h
      cases hi : e.intoKeychainScan txs t.chainGraph so with
      | error _ => rw [hi] at h; cases h
      | ok sc =>
        rw [hi] at h
        simp only at h
        cases ha : t.applyUpdate sc o with
        | none => rw [ha] at h; cases h
        | some y =>
          rw [ha] at h
          cases h
          exact ⟨e, txs, sc, rfl, hf, hi, ha⟩
  | _ => cases h

omit [DecidableEq D] [LawfulTx T] in
theorem electrumSync_delivered {t : Tracker K D TxHeight T} {s : Electrum.Server} {get : Txid → Option T} {ho : Electrum.Order}
    {so so' : SpendOrder} {o : Orders TxHeight T} {f : Flags} {bs n time : Nat} {x}
    (h : electrumSync s get ho so so' o t f bs n time = .ok x) (hu : f.resolve.utxos = true) :
    ∀ e ∈ t.fullUtxos so, ∃ τ tx, s.tx τ e.2.outpoint.txid = .ok tx := by
  unfold electrumSync at h
  cases hs : syncSpks t f.resolve with
  | none => rw [hs] at h; cases h
  | some spks =>
    cases ht : syncTxids t f.resolve with
    | none => rw [hs, ht] at h; cases h
    | some txids =>
      rw [hs, ht] at h
      simp only at h
      obtain ⟨e, -, -, h1, -⟩ := electrumFinish_ok h
      cases hq : Electrum.scanWithoutKeychain s ho t.chainGraph.chain.checkpoints spks txids (syncOutpoints t so f.resolve) bs n time with
      | ok u =>
        have := Electrum.scanWithoutKeychain_delivered hq
        intro e he
        refine this e.2.outpoint ?_
        unfold syncOutpoints
        rw [if_pos hu]
        exact List.mem_map.2 ⟨e, he, rfl⟩
      | _ => rw [hq] at h1; cases h1

omit [DecidableEq D] [LawfulTx T] in
theorem known_of_sync {t : Tracker K D TxHeight T} {s : Electrum.Server} {get : Txid → Option T} {w : Electrum.World} {v : View TxHeight T}
    (hs : ShowsView s get w v) {ho : Electrum.Order} {so so' : SpendOrder} {o : Orders TxHeight T} {f : Flags} {bs n time : Nat} {x}
    (h : electrumSync s get ho so so' o t f bs n time = .ok x) (hu : f.resolve.utxos = true) : UtxosKnown t so v := by
  intro e he
  obtain ⟨τ, tx, h1⟩ := electrumSync_delivered h hu e he
  rw [hs.shows_.2.2.2] at h1
  cases hw : w.tx e.2.outpoint.txid with
  | none => rw [hw] at h1; cases h1
  | some tx' =>
    obtain ⟨e', he', -⟩ := hs.mirrors.known.1 hw
    exact ⟨e', he'⟩

end Verif.Sync
