import Verif.Lemmas.Sync7
import Verif.Props.Tracker
import Verif.Props.Esplora

/-!
# Concrete worlds and wallets for the examples and findings of C63

A world is given by a list of demo transactions with their places; the server's index is computed from it.
-/

namespace Verif.Sync
open Verif Spec Props SparseChain ChainGraph
open _root_.Verif.Esplora (World Place)

/-- transaction `n` has to do with the script: it pays to it, or it spends an output of a transaction of the list that does -/
def touches (l : List (Fin 8 × Place)) (n : Fin 8) (spk : Script) : Bool :=
  (demoTx n).output.any (fun o => o.spk == spk) ||
  (demoTx n).input.any (fun op => !op.isNull && l.any (fun e => dId e.1 == op.txid &&
    match (demoTx e.1).output[op.vout.val]? with
    | some o => o.spk == spk
    | none => false))

/-- the world with these transactions and this chain -/
def worldOf (l : List (Fin 8 × Place)) (tip : Nat) (hash : Nat → BlockHash) : World DemoTx where
  tip := ⟨tip, hash tip⟩
  header h := if h ≤ tip then some (hash h) else none
  mempool spk := l.filterMap fun e => match e.2 with
    | none => if touches l e.1 spk then some (d e.1) else none
    | some _ => none
  confirmed spk := l.filterMap fun e => match e.2 with
    | none => none
    | some p => if touches l e.1 spk then some (d e.1, p) else none
  find x := (l.find? fun e => dId e.1 == x).map fun e => (d e.1, e.2)
  spender x v := (l.find? fun e => (demoTx e.1).input.any fun op => op.txid == x && op.vout.val == v && !op.isNull).map fun e => dId e.1

/-- a list that is a world -/
def OkList (l : List (Fin 8 × Place)) (tip : Nat) : Prop :=
  (tip < u32Max ∧ l.length ≤ 50) ∧ (l.map Prod.fst).Nodup ∧
  (∀ a ∈ l, ∀ b ∈ l, ∀ op ∈ (demoTx a.1).input, op ∈ (demoTx b.1).input → op.isNull = false → a.1 = b.1) ∧
  (∀ e ∈ l, ∀ p ∈ e.2, p.1 ≤ tip) ∧
  (∀ e ∈ l, ∀ op ∈ (demoTx e.1).input, op.isNull = false → ∃ e' ∈ l, dId e'.1 = op.txid)

instance (l tip) : Decidable (OkList l tip) := by unfold OkList; infer_instance

variable {l : List (Fin 8 × Place)} {tip : Nat} {hash : Nat → BlockHash}

theorem worldOf_find (h : OkList l tip) {x : Txid} {y : DemoTx × Place} :
    (worldOf l tip hash).find x = some y ↔ ∃ n, x = dId n ∧ y.1 = d n ∧ (n, y.2) ∈ l := by
  obtain ⟨-, hn, -⟩ := h
  constructor
  · intro hf
    obtain ⟨e, he, rfl⟩ := Option.map_eq_some_iff.1 hf
    have h1 := List.find?_some he
    simp only [beq_iff_eq] at h1
    exact ⟨e.1, h1.symm, rfl, List.mem_of_find?_eq_some he⟩
  · rintro ⟨n, rfl, h1, h2⟩
    have : (l.find? fun e => dId e.1 == dId n) ≠ none := by
      intro h
      have := List.find?_eq_none.1 h _ h2
      simp at this
    obtain ⟨e, he⟩ := Option.ne_none_iff_exists'.1 this
    have h3 := List.find?_some he
    simp only [beq_iff_eq] at h3
    have h4 : e = (n, y.2) := List.inj_on_of_nodup_map hn (List.mem_of_find?_eq_some he) h2 (dId_inj _ _ h3)
    show (l.find? fun e => dId e.1 == dId n).map _ = _
    rw [he, h4]
    obtain ⟨a, b⟩ := y
    simp only at h1
    rw [h1]; rfl

theorem worldOf_history (h : OkList l tip) {spk : Script} {y : DemoTx × Place} :
    y ∈ (worldOf l tip hash).history spk ↔ ∃ n, y.1 = d n ∧ (n, y.2) ∈ l ∧ touches l n spk = true := by
  have hm : ((worldOf l tip hash).mempool spk).take 50 = (worldOf l tip hash).mempool spk := by
    apply List.take_of_length_le
    exact le_trans (List.length_filterMap_le _ _) h.1.2
  unfold World.history
  rw [hm]
  unfold World.settled worldOf
  simp only [List.mem_append, List.mem_map, List.mem_filterMap]
  constructor
  · rintro (⟨t, ⟨⟨n, p⟩, h1, h2⟩, rfl⟩ | ⟨⟨t, q⟩, ⟨⟨n, p⟩, h1, h2⟩, rfl⟩)
    · cases p with
      | some p => cases h2
      | none =>
        simp only at h2
        by_cases ht : touches l n spk = true
        · rw [if_pos ht] at h2; cases h2; exact ⟨n, rfl, h1, ht⟩
        · rw [if_neg ht] at h2; cases h2
    · cases p with
      | none => cases h2
      | some p =>
        simp only at h2
        by_cases ht : touches l n spk = true
        · rw [if_pos ht] at h2; cases h2; exact ⟨n, rfl, h1, ht⟩
        · rw [if_neg ht] at h2; cases h2
  · rintro ⟨n, h1, h2, h3⟩
    obtain ⟨t, p⟩ := y
    simp only at h1 h2
    subst h1
    cases p with
    | none =>
      left
      exact ⟨d n, ⟨(n, none), h2, by simp only; rw [if_pos h3]⟩, rfl⟩
    | some p =>
      right
      exact ⟨(d n, p), ⟨(n, some p), h2, by simp only; rw [if_pos h3]⟩, rfl⟩

theorem worldOf_spender (h : OkList l tip) {x : Txid} {v : Nat} {y : Txid} :
    (worldOf l tip hash).spender x v = some y ↔ ∃ n p, y = dId n ∧ (n, p) ∈ l ∧ ∃ op ∈ (demoTx n).input, op.txid = x ∧ op.vout.val = v ∧
      op.isNull = false := by
  have hp : ∀ e : Fin 8 × Place, ((demoTx e.1).input.any fun op => op.txid == x && op.vout.val == v && !op.isNull) = true ↔
      ∃ op ∈ (demoTx e.1).input, op.txid = x ∧ op.vout.val = v ∧ op.isNull = false := by
    intro e
    simp [List.any_eq_true, and_assoc]
  constructor
  · intro hf
    obtain ⟨e, he, rfl⟩ := Option.map_eq_some_iff.1 hf
    exact ⟨e.1, e.2, rfl, List.mem_of_find?_eq_some he, (hp e).1 (List.find?_some (p := fun e : Fin 8 × Place => (demoTx e.1).input.any fun op => op.txid == x && op.vout.val == v && !op.isNull) he)⟩
  · rintro ⟨n, p, rfl, h1, op, h2, h3, h4, h5⟩
    show (l.find? _).map _ = _
    cases hf : l.find? (fun e => (demoTx e.1).input.any fun op => op.txid == x && op.vout.val == v && !op.isNull) with
    | none =>
      exfalso
      exact (List.find?_eq_none.1 hf _ h1) ((hp (n, p)).2 ⟨op, h2, h3, h4, h5⟩)
    | some e =>
      obtain ⟨op', h6, h7, h8, h9⟩ := (hp e).1 (List.find?_some (p := fun e : Fin 8 × Place => (demoTx e.1).input.any fun op => op.txid == x && op.vout.val == v && !op.isNull) hf)
      have : op' = op := by
        obtain ⟨a, b⟩ := op; obtain ⟨a', b'⟩ := op'
        simp only at h3 h4 h7 h8
        subst h3; subst h7
        congr 1
        exact Fin.ext (h8.trans h4.symm)
      subst this
      have := h.2.2.1 e (List.mem_of_find?_eq_some hf) (n, p) h1 op' h6 h2 h5
      simp [this]

theorem sound_worldOf (h : OkList l tip) : (worldOf l tip hash).Sound := by
  obtain ⟨h1, h2, h3, h4, h5⟩ := id h
  refine ⟨?_, ?_, h1.1, ?_, ?_, ?_, ?_, ?_, ?_⟩
  · simp [worldOf]
  · intro k
    show (∃ x, (if k ≤ tip then some (hash k) else none) = some x) ↔ k ≤ tip
    by_cases e : k ≤ tip <;> simp [e]
  · intro spk e he
    obtain ⟨n, h6, h7, -⟩ := (worldOf_history h).1 he
    refine (worldOf_find h).2 ⟨n, ?_, h6, h7⟩
    rw [h6]
    exact demoTx_txid n
  · intro x e he
    obtain ⟨n, rfl, h6, -⟩ := (worldOf_find h).1 he
    rw [h6]; exact demoTx_txid n
  · intro x t k time he
    obtain ⟨n, -, -, h6⟩ := (worldOf_find h).1 he
    exact h4 _ h6 (k, time) rfl
  · intro spk
    have key : ∀ l' : List (Fin 8 × Place), (l'.map Prod.fst).Nodup →
        ((l'.filterMap fun e => match e.2 with
          | none => none
          | some p => if touches l e.1 spk then some (d e.1, p) else none).map fun e => (asTx e.1).txid).Nodup ∧
        ∀ x ∈ ((l'.filterMap fun e => match e.2 with
          | none => none
          | some p => if touches l e.1 spk then some (d e.1, p) else none).map fun e => (asTx e.1).txid), ∃ e ∈ l', dId e.1 = x := by
      intro l'
      induction l' with
      | nil => intro _; exact ⟨List.nodup_nil, by simp⟩
      | cons e l' ih =>
        intro hn
        rw [List.map_cons, List.nodup_cons] at hn
        obtain ⟨i1, i2⟩ := ih hn.2
        obtain ⟨n, p⟩ := e
        have hskip : ∀ x, (∃ e ∈ l', dId e.1 = x) → ∃ e ∈ (n, p) :: l', dId e.1 = x := by
          rintro x ⟨e, h6, h7⟩; exact ⟨e, List.mem_cons_of_mem _ h6, h7⟩
        cases p with
        | none => exact ⟨i1, fun x hx => hskip x (i2 x hx)⟩
        | some p =>
          by_cases ht : touches l n spk = true
          · rw [List.filterMap_cons_some (b := (d n, p)) (by simp only; rw [if_pos ht]), List.map_cons]
            have he : (asTx (d n)).txid = dId n := demoTx_txid n
            refine ⟨List.nodup_cons.2 ⟨?_, i1⟩, ?_⟩
            · intro hx
              obtain ⟨e, h6, h7⟩ := i2 _ hx
              rw [he] at h7
              exact hn.1 (List.mem_map.2 ⟨e, h6, dId_inj _ _ h7⟩)
            · intro x hx
              rcases List.mem_cons.1 hx with rfl | hx
              · exact ⟨(n, some p), List.mem_cons_self, he.symm⟩
              · exact hskip x (i2 x hx)
          · rw [List.filterMap_cons_none (by simp only; rw [if_neg ht])]
            exact ⟨i1, fun x hx => hskip x (i2 x hx)⟩
    exact (key l h2).1
  · intro x v y hy
    obtain ⟨n, p, rfl, h6, -⟩ := (worldOf_spender h).1 hy
    exact ⟨(d n, p), (worldOf_find h).2 ⟨n, rfl, rfl, h6⟩⟩
  · intro x y a b op ha hb h6 h7 h8
    obtain ⟨n, rfl, h9, h10⟩ := (worldOf_find h).1 ha
    obtain ⟨m, rfl, h11, h12⟩ := (worldOf_find h).1 hb
    rw [h9] at h6
    rw [h11] at h7
    have := h3 _ h10 _ h12 op h6 h7 h8
    simp only at this
    rw [this]

theorem indexed_worldOf (h : OkList l tip) : Indexed (worldOf l tip hash) := by
  obtain ⟨h1, h2, h3, h4, h5⟩ := id h
  refine ⟨?_, ?_, ?_, ?_⟩
  · intro x e o he ho
    obtain ⟨n, rfl, h6, h7⟩ := (worldOf_find h).1 he
    refine (worldOf_history h).2 ⟨n, h6, h7, ?_⟩
    rw [h6] at ho
    unfold touches
    rw [Bool.or_eq_true]
    left
    exact List.any_eq_true.2 ⟨o, ho, by simp⟩
  · intro x e op e' o he hi hn he' ho
    obtain ⟨n, rfl, h6, h7⟩ := (worldOf_find h).1 he
    obtain ⟨m, h8, h9, h10⟩ := (worldOf_find h).1 he'
    refine (worldOf_history h).2 ⟨n, h6, h7, ?_⟩
    rw [h6] at hi
    unfold touches
    rw [Bool.or_eq_true]
    right
    refine List.any_eq_true.2 ⟨op, hi, ?_⟩
    rw [hn]
    simp only [Bool.not_false, Bool.true_and]
    refine List.any_eq_true.2 ⟨(m, e'.2), h10, ?_⟩
    rw [h9] at ho
    have ho' : (demoTx m).output[op.vout.val]? = some o := ho
    simp [h8, ho']
  · intro op y
    rw [worldOf_spender h]
    unfold SpentIn
    constructor
    · rintro ⟨n, p, rfl, h6, op', h7, h8, h9, h10⟩
      have : op' = op := by
        obtain ⟨a, b⟩ := op; obtain ⟨a', b'⟩ := op'
        simp only at h8 h9
        subst h8
        congr 1
        exact Fin.ext h9
      subst this
      exact ⟨_, viewOf_find.2 ⟨(d n, p), (worldOf_find h).2 ⟨n, rfl, rfl, h6⟩, rfl⟩, h7, h10⟩
    · rintro ⟨e, he, h7, h10⟩
      obtain ⟨e0, he0, rfl⟩ := viewOf_find.1 he
      obtain ⟨n, rfl, h8, h9⟩ := (worldOf_find h).1 he0
      simp only at h7
      rw [h8] at h7
      exact ⟨n, e0.2, rfl, h9, op, h7, rfl, rfl, h10⟩
  · intro x e op he hi hn
    obtain ⟨n, rfl, h6, h7⟩ := (worldOf_find h).1 he
    rw [h6] at hi
    obtain ⟨e', h8, h9⟩ := h5 _ h7 op hi hn
    exact ⟨(d e'.1, e'.2), (worldOf_find h).2 ⟨e'.1, h9.symm, rfl, h8⟩⟩

/-! ## wallets -/

abbrev DemoWallet := Tracker (Fin 3) DemoDesc ConfirmationTime DemoTx

/-- a position that is right, unless it is in or above a block that has left the best chain -/
def okPos (c : SparseChain ConfirmationTime) (l : List (Fin 8 × Place)) (hash : Nat → BlockHash) (x : Txid) : ConfirmationTime → Bool
  | .unconfirmed => true
  | .confirmed k time => decide (k < u32Max) && (c.checkpoints.entries.any (fun b => decide (b.1 ≤ k) && hash b.1 != b.2) ||
      l.any (fun e => dId e.1 == x && e.2 == some (k, time)))

/-- a decidable form of `Ready` -/
def ReadyB (t : DemoWallet) (l : List (Fin 8 × Place)) (tip : Nat) (hash : Nat → BlockHash) : Prop :=
  DemoBases t.txoutIndex ∧ (∀ k, numRevealed t.txoutIndex k ≤ 2 ^ 31 ∧ t.txoutIndex.lookaheadOf k ≤ 2 ^ 30) ∧
  (∀ e ∈ t.chainGraph.chain.checkpoints.entries, e.1 ≤ tip) ∧
  (∀ a ∈ t.chainGraph.chain.checkpoints.entries, ∀ b ∈ t.chainGraph.chain.checkpoints.entries, a.1 ≤ b.1 → hash b.1 = b.2 → hash a.1 = a.2) ∧
  (∀ e ∈ t.chainGraph.chain.txidToPos.entries, okPos t.chainGraph.chain l hash e.1 e.2 = true)

instance (t l tip hash) : Decidable (ReadyB t l tip hash) := by unfold ReadyB; infer_instance

theorem ready_of {t : DemoWallet} (hr : t.Reachable) (h : OkList l tip) (hb : ReadyB t l tip hash) : Ready t (viewOf (worldOf l tip hash)) := by
  obtain ⟨h1, h2, h3, h4, h5⟩ := hb
  have hcp : ∀ k b, t.chainGraph.chain.checkpointAt k = some b → (k, b.hash) ∈ t.chainGraph.chain.checkpoints.entries := by
    intro k b hb
    unfold checkpointAt at hb
    obtain ⟨x, hx, rfl⟩ := Option.map_eq_some_iff.1 hb
    exact OMap.mem_entries.2 hx
  have hle : ∀ k b, t.chainGraph.chain.checkpointAt k = some b → k ≤ tip := fun k b hb => h3 _ (hcp k b hb)
  have hhd : ∀ k b, t.chainGraph.chain.checkpointAt k = some b → ((viewOf (worldOf l tip hash)).header k = some b.hash ↔ hash k = b.hash) := by
    intro k b hb
    show (if k ≤ tip then some (hash k) else none) = some b.hash ↔ _
    rw [if_pos (hle k b hb)]; simp
  have hpos : ∀ x p, t.chainGraph.chain.txPosition x = some p → okPos t.chainGraph.chain l hash x p = true :=
    fun x p hp => h5 (x, p) (OMap.mem_entries.2 hp)
  have hconf : ∀ x p k, t.chainGraph.chain.txPosition x = some p → ChainPosition.height p = TxHeight.confirmed k → ∃ time, p = .confirmed k time := by
    intro x p k _ hk
    cases p with
    | unconfirmed => cases hk
    | confirmed k' time => cases hk; exact ⟨time, rfl⟩
  refine ⟨hr, demo_allDerivable _, demo_noCollision h1, h2, ⟨?_, ?_⟩, ?_, ?_, ?_⟩
  · rintro k ⟨b, hb⟩; exact lt_of_le_of_lt (hle k b hb) h.1.1
  · intro x p k hp hk
    obtain ⟨time, rfl⟩ := hconf x p k hp hk
    have := hpos x _ hp
    unfold okPos at this
    rw [Bool.and_eq_true] at this
    exact of_decide_eq_true this.1
  · rintro k ⟨b, hb⟩; exact hle k b hb
  · intro a b x y hab ha hb hy
    rw [hhd _ _ ha]
    rw [hhd _ _ hb] at hy
    exact h4 _ (hcp _ _ ha) _ (hcp _ _ hb) hab hy
  · intro x p k hp hk hall
    obtain ⟨time, rfl⟩ := hconf x p k hp hk
    have := hpos x _ hp
    unfold okPos at this
    rw [Bool.and_eq_true, Bool.or_eq_true] at this
    rcases this.2 with h6 | h6
    · exfalso
      obtain ⟨⟨hb, xb⟩, h7, h8⟩ := List.any_eq_true.1 h6
      simp only [Bool.and_eq_true, decide_eq_true_eq, bne_iff_ne, ne_eq] at h8
      have hc : t.chainGraph.chain.checkpointAt hb = some ⟨hb, xb⟩ := by
        unfold checkpointAt; rw [OMap.mem_entries.1 h7]; rfl
      exact h8.2 ((hhd _ _ hc).1 (hall hb _ h8.1 hc))
    · obtain ⟨⟨n, pl⟩, h7, h8⟩ := List.any_eq_true.1 h6
      simp only [Bool.and_eq_true, beq_iff_eq] at h8
      obtain ⟨rfl, rfl⟩ := h8
      exact ⟨d n, viewOf_find.2 ⟨(d n, some (k, time)), (worldOf_find h).2 ⟨n, rfl, rfl, h7⟩, rfl⟩⟩

/-- two wildcard keychains and one without, lookahead 2; nothing in the chain -/
def fresh : DemoWallet := ⟨exFresh.txoutIndex, ChainGraph.empty⟩

theorem fresh_reachable : fresh.Reachable := by
  have key : ∀ (ops : List (KeychainIndex.Op (Fin 3) DemoDesc)) (i i' : KeychainIndex (Fin 3) DemoDesc) (log),
      Tracker.Reachable (⟨i, ChainGraph.empty⟩ : DemoWallet) → i.runFrom ops = some (i', log) →
      Tracker.Reachable (⟨i', ChainGraph.empty⟩ : DemoWallet) := by
    intro ops
    induction ops with
    | nil => intro i i' log h hr; cases hr; exact h
    | cons op ops ih =>
      intro i i' log h hr
      unfold KeychainIndex.runFrom at hr
      cases hs : i.step op with
      | none => rw [hs] at hr; cases hr
      | some r =>
        rw [hs] at hr
        simp only [Option.bind_eq_bind, Option.bind_some] at hr
        cases hr' : r.1.runFrom ops with
        | none => rw [hr'] at hr; cases hr
        | some q =>
          rw [hr'] at hr
          have : q.1 = i' := by cases hr; rfl
          exact ih r.1 i' q.2 (Tracker.Reachable.index op r h hs) (by rw [hr', ← this])
  unfold fresh exFresh
  have hsome : ((KeychainIndex.empty : KeychainIndex (Fin 3) DemoDesc).runFrom [.addKeychain 0 ⟨true, 0⟩, .addKeychain 1 ⟨true, 1⟩,
    .addKeychain 2 ⟨false, 2⟩, .setLookaheadForAll 2]).isSome = true := by decide +kernel
  cases hr : (KeychainIndex.empty : KeychainIndex (Fin 3) DemoDesc).runFrom [.addKeychain 0 ⟨true, 0⟩, .addKeychain 1 ⟨true, 1⟩,
    .addKeychain 2 ⟨false, 2⟩, .setLookaheadForAll 2] with
  | none => rw [hr] at hsome; cases hsome
  | some q => exact key _ _ q.1 q.2 .empty hr

/-- the wallet after these calls -/
def walletOf (ops : List (Tracker.Op (Fin 3) ConfirmationTime DemoTx)) : DemoWallet := ((fresh.runFrom ops).map Prod.fst).getD fresh

theorem walletOf_reachable (ops : List (Tracker.Op (Fin 3) ConfirmationTime DemoTx)) (hok : ∀ op ∈ ops, TrOpOk op) : (walletOf ops).Reachable := by
  unfold walletOf
  cases h : fresh.runFrom ops with
  | none => exact fresh_reachable
  | some r => exact tracker_run_reachable fresh_reachable ops hok h

abbrev oC : Orders ConfirmationTime DemoTx := Orders.id _ _

/-- growth (`g = tip`) and reorganisations above block `g` -/
theorem kin_of {l' : List (Fin 8 × Place)} {tip' : Nat} {hash' : Nat → BlockHash} (h : OkList l tip) (h' : OkList l' tip') (g : Nat)
    (hsame : ∀ a ≤ g, hash' a = hash a) (hdiff : ∀ a, a ≤ tip → a ≤ tip' → g < a → hash' a ≠ hash a)
    (hk : ∀ e ∈ l, ∀ p ∈ e.2, p.1 ≤ g → e ∈ l') :
    Kin (viewOf (worldOf l tip hash)) (viewOf (worldOf l' tip' hash')) := by
  have hag : ∀ b x, (viewOf (worldOf l tip hash)).header b = some x → (viewOf (worldOf l' tip' hash')).header b = some x →
      b ≤ tip ∧ b ≤ tip' ∧ b ≤ g := by
    intro b x h1 h2
    change (if b ≤ tip then some (hash b) else none) = some x at h1
    change (if b ≤ tip' then some (hash' b) else none) = some x at h2
    by_cases e1 : b ≤ tip
    · by_cases e2 : b ≤ tip'
      · rw [if_pos e1] at h1
        rw [if_pos e2] at h2
        cases h1
        refine ⟨e1, e2, ?_⟩
        by_contra hgt
        exact hdiff b e1 e2 (by omega) (Option.some.inj h2)
      · rw [if_neg e2] at h2; cases h2
    · rw [if_neg e1] at h1; cases h1
  refine ⟨?_, ?_⟩
  · intro a b x hab h1 h2
    obtain ⟨h3, h4, h5⟩ := hag b x h1 h2
    show (if a ≤ tip' then some (hash' a) else none) = (if a ≤ tip then some (hash a) else none)
    rw [if_pos (by omega), if_pos (by omega), hsame a (by omega)]
  · intro x y p k hh hx hp h1 h2
    obtain ⟨-, -, h5⟩ := hag k hh h1 h2
    obtain ⟨e, he, h6⟩ := viewOf_find.1 hx
    cases h6
    obtain ⟨n, rfl, h7, h8⟩ := (worldOf_find h).1 he
    obtain ⟨y, pl⟩ := e
    cases pl with
    | none => cases hp
    | some q =>
      obtain ⟨k', time⟩ := q
      cases hp
      exact viewOf_find.2 ⟨(y, some (k, time)), (worldOf_find h').2 ⟨n, rfl, h7, hk _ h8 (k, time) rfl h5⟩, rfl⟩

theorem confirmed_le (h : OkList l tip) (spk : Script) : ((worldOf l tip hash).confirmed spk).length ≤ 50 :=
  le_trans (List.length_filterMap_le _ _) h.1.2

/-- `Sync` against a server that shows this world -/
def runSync (w : World DemoTx) (t : DemoWallet) (f : Flags) : Option DemoWallet :=
  match esploraSync (Esplora.serverOf fun _ => w) oC oC soId t f 2 50 1 0 with
  | .ok (t', .ok _) => some t'
  | _ => none

theorem runSync_ok {w : World DemoTx} {t t' : DemoWallet} {f : Flags} (h : runSync w t f = some t') :
    ∃ cs, esploraSync (Esplora.serverOf fun _ => w) oC oC soId t f 2 50 1 0 = .ok (t', .ok cs) := by
  unfold runSync at h
  rcases hq : esploraSync (Esplora.serverOf fun _ => w) oC oC soId t f 2 50 1 0 with ⟨t1, e | cs⟩ | _ | _ | _
  · rw [hq] at h; cases h
  · rw [hq] at h; cases h; exact ⟨cs, rfl⟩
  · rw [hq] at h; cases h
  · rw [hq] at h; cases h
  · rw [hq] at h; cases h

/-- no flags -/
abbrev plain : Flags := ⟨false, false, false, false⟩

/-- the blocks `100 + h` -/
def exHash : Nat → BlockHash := fun h => 100 + h

/-- transactions 0 and 1 are confirmed, 3 (a child of 1) is in the mempool -/
def exL : List (Fin 8 × Place) := [(0, some (2, 5)), (1, some (4, 7)), (3, none)]
def exW : World DemoTx := worldOf exL 6 exHash
theorem exL_ok : OkList exL 6 := by decide

/-- the wallet has block 2, and a block 5 that has left the best chain together with transaction 1, which was confirmed there -/
def exOps : List (Tracker.Op (Fin 3) ConfirmationTime DemoTx) :=
  [.insertCheckpoint ⟨2, 102⟩ oC, .insertCheckpoint ⟨5, 999⟩ oC, .insertTx (d 0) (.confirmed 2 5) oC, .insertTx (d 1) (.confirmed 5 1) oC]
def exT : DemoWallet := walletOf exOps

theorem exT_ready : Ready exT (viewOf exW) :=
  ready_of (walletOf_reachable _ (by simp [exOps, TrOpOk])) exL_ok (by decide +kernel)

theorem fresh_ready : Ready fresh (viewOf exW) := ready_of fresh_reachable exL_ok (by decide +kernel)

end Verif.Sync
