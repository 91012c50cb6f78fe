import Verif.Lemmas.Sync4
import Verif.Props.Esplora
import Mathlib.Data.Nat.Find

/-!
# The answer of an honest esplora server, and the wallet after it
-/

namespace Verif.Sync
open Verif Spec Props SparseChain ChainGraph
variable {P T : Type} [LinearOrder P] [ChainPosition P] [LawfulChainPosition P] [LinearOrder T] [AsTransaction T] [LawfulTx T]

/-- what the update of an honest server in the world `v` says to a wallet with chain `c`: the transactions `S` -/
structure Answer (v : View P T) (c : SparseChain P) (S : Txid → Prop) (u : ChainGraph P T) : Prop where
  reach : Reachable u
  pos : ∀ x p, u.chain.txPosition x = some p ↔ S x ∧ ∃ y, v.find x = some (y, p)
  graph : ∀ x y, u.graph.getTx x = some y → ∃ e, v.find x = some e
  tip : u.chain.latestCheckpoint = some v.tip
  headers : ∀ h b, u.chain.checkpointAt h = some b → v.header h = some b.hash
  connects : ∀ h b, c.checkpointAt h = some b → HasCp u.chain h ∨ ∃ a, h < a ∧ Agree c u.chain a

theorem answer_of_has {w : Esplora.World T} {c : SparseChain ConfirmationTime} {S : Txid → Prop} {u : ChainGraph ConfirmationTime T}
    (h : Esplora.Has w u.chain.checkpointAt S u) (h1 : u.chain.latestCheckpoint = some w.tip)
    (h2 : ∀ h b, u.chain.checkpointAt h = some b → w.header h = some b.hash)
    (h3 : ∀ h b, c.checkpointAt h = some b → HasCp u.chain h ∨ ∃ a, h < a ∧ Agree c u.chain a) : Answer (viewOf w) c S u := by
  refine ⟨h.upd.reach, ?_, ?_, h1, h2, h3⟩
  · intro x p
    rw [h.pos]
    constructor
    · rintro ⟨hS, e, he, rfl⟩
      exact ⟨hS, e.1, by unfold viewOf; simp only; rw [he]; rfl⟩
    · rintro ⟨hS, y, hy⟩
      unfold viewOf at hy
      simp only at hy
      rw [Option.map_eq_some_iff] at hy
      obtain ⟨e, he, h4⟩ := hy
      cases h4
      exact ⟨hS, e, he, rfl⟩
  · intro x y hy
    obtain ⟨pl, hpl⟩ := h.graph x y hy
    exact ⟨_, by unfold viewOf; simp only; rw [hpl]; rfl⟩

theorem Answer.congr {v : View P T} {c : SparseChain P} {S S' : Txid → Prop} {u : ChainGraph P T} (h : Answer v c S u)
    (hS : ∀ x, S x ↔ S' x) : Answer v c S' u :=
  ⟨h.reach, fun x p => by rw [h.pos, hS], h.graph, h.tip, h.headers, h.connects⟩

theorem answer_scan {s : Esplora.Server T} {w : Esplora.World T} (hs : s.Shows w) (hw : w.Sound) (o : Orders ConfirmationTime T)
    (c : SparseChain ConfirmationTime) (hc : ∀ h, HasCp c h → h ≤ w.tip.height) (par fuel n : Nat) (K : Type) [LinearOrder K]
    (ks : OMap K (List (Nat × Script))) (hf : ∀ k l, ks.get k = some l → ∀ e ∈ l, (w.confirmed e.2).length ≤ fuel)
    (txids : List Txid) (ops : List OutPoint) (gap t : Nat) :
    ∃ r, Esplora.scan s o c.checkpoints par fuel (n + 1) K ks txids ops gap t = .ok r ∧
      Answer (viewOf w) c (fun x => Esplora.FoundByScript w gap (max par 1) ks x ∨ Esplora.FoundByTxid w txids x ∨ Esplora.FoundByOutpoint w ops x) r.update ∧
      ∀ k i, r.lastActiveIndices.get k = some i ↔ ∃ l, ks.get k = some l ∧ Esplora.LastActive w gap (max par 1) l i := by
  have hm : ∀ h x, c.checkpoints.get h = some x → h ≤ w.tip.height := fun h x hx => hc h (hasCp_iff.2 ⟨x, hx⟩)
  obtain ⟨r, h1, h2, h3, h4, h5⟩ := Esplora.scan_static hs hw o c.checkpoints hm par fuel n K ks hf txids ops gap t
  refine ⟨r, h1, answer_of_has h4 h2 h3 ?_, h5⟩
  obtain ⟨start, tip, T2, t2, hfin, -⟩ := (Esplora.scan_spec s o c.checkpoints par fuel (fun t h hh => by
    rw [hs.height] at hh; cases hh; exact hw.small) (fun h x hx => lt_of_le_of_lt (hm h x hx) hw.small) (n + 1) K ks txids ops gap t).2 r h1
  have h6 := hfin.connects (fun t h h' x hh hx => by rw [hs.height] at hh; cases hh; exact hm h' x hx)
  intro h b hb
  unfold SparseChain.checkpointAt at hb
  rw [Option.map_eq_some_iff] at hb
  obtain ⟨x, hx, rfl⟩ := hb
  rcases h6 h x hx with h7 | ⟨a, y, h7, h8, h9⟩
  · exact .inl h7
  · exact .inr ⟨a, h7, ⟨a, y⟩, by unfold SparseChain.checkpointAt; rw [h8]; rfl, h9⟩

theorem answer_sync {s : Esplora.Server T} {w : Esplora.World T} (hs : s.Shows w) (hw : w.Sound) (o : Orders ConfirmationTime T)
    (c : SparseChain ConfirmationTime) (hc : ∀ h, HasCp c h → h ≤ w.tip.height) (par fuel n : Nat) (spks : List Script)
    (hf : ∀ spk ∈ spks, (w.confirmed spk).length ≤ fuel) (hlen : spks.length ≤ u64Max)
    (txids : List Txid) (ops : List OutPoint) (t : Nat) :
    ∃ u, Esplora.scanWithoutKeychain s o c.checkpoints spks txids ops par fuel (n + 1) t = .ok u ∧
      Answer (viewOf w) c (fun x => (∃ spk ∈ spks, ∃ e ∈ w.history spk, (asTx e.1).txid = x) ∨ Esplora.FoundByTxid w txids x ∨
        Esplora.FoundByOutpoint w ops x) u := by
  have hget : ∀ k l, (OMap.ofList [((), spks.zipIdx.map (fun e => (e.2, e.1)))] : OMap Unit (List (Nat × Script))).get k = some l ↔
      l = spks.zipIdx.map (fun e => (e.2, e.1)) := by
    intro k l
    have : (OMap.ofList [((), spks.zipIdx.map (fun e => (e.2, e.1)))] : OMap Unit (List (Nat × Script))).get k =
        some (spks.zipIdx.map (fun e => (e.2, e.1))) := by rfl
    rw [this]
    simp [eq_comm]
  obtain ⟨r, h1, h2, -⟩ := answer_scan hs hw o c hc par fuel n Unit
    (OMap.ofList [((), spks.zipIdx.map (fun e => (e.2, e.1)))]) (by
      intro k l hl e he
      rw [hget] at hl
      subst hl
      obtain ⟨e', he', rfl⟩ := List.mem_map.1 he
      exact hf _ (List.mem_zipIdx' he' |>.2 ▸ List.getElem_mem _)) txids ops u64Max t
  refine ⟨r.update, by unfold Esplora.scanWithoutKeychain; rw [h1], h2.congr fun x => ?_⟩
  have hfound : Esplora.FoundByScript w u64Max (max par 1) (OMap.ofList [((), spks.zipIdx.map (fun e => (e.2, e.1)))] : OMap Unit (List (Nat × Script))) x ↔
      ∃ spk ∈ spks, ∃ e ∈ w.history spk, (asTx e.1).txid = x := by
    unfold Esplora.FoundByScript
    constructor
    · rintro ⟨k, l, j, e, tx, hl, -, hj, htx, hx⟩
      rw [hget] at hl
      subst hl
      obtain ⟨e', he', rfl⟩ := List.mem_map.1 (List.mem_of_getElem? hj)
      exact ⟨e'.1, List.mem_zipIdx' he' |>.2 ▸ List.getElem_mem _, tx, htx, hx⟩
    · rintro ⟨spk, hspk, tx, htx, hx⟩
      obtain ⟨j, hj, rfl⟩ := List.getElem_of_mem hspk
      refine ⟨(), _, j, (j, spks[j]), tx, (hget _ _).2 rfl, ⟨by simpa using hj, ?_⟩, by simp [hj], htx, hx⟩
      rintro ⟨b, h3, h4, -⟩
      omega
  rw [hfound]

omit [LinearOrder P] [ChainPosition P] [LawfulChainPosition P] [LawfulTx T] in
theorem viewOf_find {w : Esplora.World T} {x : Txid} {e : T × ConfirmationTime} :
    (viewOf w).find x = some e ↔ ∃ e', w.find x = some e' ∧ e = (e'.1, Esplora.positionOf e'.2) := by
  unfold viewOf
  simp only
  rw [Option.map_eq_some_iff]
  constructor
  · rintro ⟨e', h1, h2⟩; exact ⟨e', h1, h2.symm⟩
  · rintro ⟨e', h1, h2⟩; exact ⟨e', h1, h2.symm⟩

omit [LawfulTx T] in
theorem viewOf_sound {w : Esplora.World T} (hw : w.Sound) (hx : Indexed w) : (viewOf w).Sound := by
  refine ⟨⟨?_, ?_, ?_⟩, hw.tip_header, hw.headers, hw.small, ?_⟩
  · intro x e h
    obtain ⟨e', h1, rfl⟩ := viewOf_find.1 h
    exact hw.found _ _ h1
  · intro x y a b op ha hb h1 h2 hn
    obtain ⟨a', ha', rfl⟩ := viewOf_find.1 ha
    obtain ⟨b', hb', rfl⟩ := viewOf_find.1 hb
    exact hw.no_double_spend x y a' b' op ha' hb' h1 h2 hn
  · intro x e op h h1 hn
    obtain ⟨e', he', rfl⟩ := viewOf_find.1 h
    obtain ⟨e2, h2⟩ := hx.parents x e' op he' h1 hn
    exact ⟨_, viewOf_find.2 ⟨e2, h2, rfl⟩⟩
  · intro x y p h hx hp
    obtain ⟨⟨y', pl⟩, he', h2⟩ := viewOf_find.1 hx
    cases h2
    rcases pl with _ | ⟨h', time⟩
    · cases hp
    · cases hp
      exact hw.below _ _ _ _ he'

namespace Answer
variable {v : View P T} {c : SparseChain P} {S : Txid → Prop} {u : ChainGraph P T}

theorem tells (h : Answer v c S u) : Tells v.find u := by
  intro x p hp
  exact ((h.pos x p).1 hp).2

theorem connected (h : Answer v c S u) (k : Nat) : ¬ Disconnected c u.chain k := by
  rintro ⟨⟨-, ⟨b, hb⟩, habove, -⟩, hno⟩
  rcases h.connects k b hb with h1 | ⟨a, h2, h3⟩
  · exact hno h1
  · have := habove a h3
    omega

/-- what the update does not invalidate is in the best chain -/
theorem agree (h : Answer v c S u) (hl : Linked c v) {k : Nat} (hk : ¬ Invalidated c u.chain k) (a : Nat) (b : BlockId) (ha : a ≤ k)
    (hb : c.checkpointAt a = some b) : v.header a = some b.hash := by
  by_cases hab : ∃ a', a ≤ a' ∧ Agree c u.chain a'
  · obtain ⟨a', h1, y, h2, h3⟩ := hab
    exact hl a a' b y h1 hb h2 (h.headers a' y h3)
  · have habove : AboveAgreement c u.chain a := by
      intro a' h1
      by_contra h2
      exact hab ⟨a', by omega, h1⟩
    have hua : HasCp u.chain a := by
      rcases h.connects a b hb with h1 | ⟨a', h2, h3⟩
      · exact h1
      · exact absurd ⟨a', by omega, h3⟩ hab
    have hdiv : Diverges c u.chain := by
      obtain ⟨ht, -⟩ := Electrum.latestCheckpoint_eq.1 h.tip
      refine ⟨_, ht, fun hag => ?_⟩
      have := ht.2 a hua
      exact hab ⟨_, this, hag⟩
    exfalso
    apply hk
    classical
    have hex : ∃ f, HasCp c f ∧ AboveAgreement c u.chain f := ⟨a, ⟨b, hb⟩, habove⟩
    refine ⟨Nat.find hex, ⟨hdiv, (Nat.find_spec hex).1, (Nat.find_spec hex).2, fun f' h1 h2 => Nat.find_min' hex ⟨h1, h2⟩⟩, ?_⟩
    exact le_trans (Nat.find_min' hex ⟨⟨b, hb⟩, habove⟩) ha

/-- if all blocks of the wallet are in the best chain, none is invalidated -/
theorem none_invalid (h : Answer v c S u) (hall : ∀ a b, c.checkpointAt a = some b → v.header a = some b.hash) (k : Nat) :
    ¬ Invalidated c u.chain k := by
  rintro ⟨f, ⟨-, ⟨b, hb⟩, habove, -⟩, -⟩
  rcases h.connects f b hb with ⟨b', hb'⟩ | ⟨a, h1, h2⟩
  · have h1 := h.headers f b' hb'
    rw [hall f b hb] at h1
    have : b = b' := by
      unfold checkpointAt at hb hb'
      obtain ⟨x, hx, rfl⟩ := Option.map_eq_some_iff.1 hb
      obtain ⟨x', hx', rfl⟩ := Option.map_eq_some_iff.1 hb'
      cases h1; rfl
    subst this
    exact absurd (habove f ⟨b, hb, hb'⟩) (lt_irrefl _)
  · exact absurd (habove a h2) (by omega)

theorem truthful (h : Answer v c S u) (hl : Linked c v) (ht : Truthful c v) (x : Txid) (p : P) (k : Nat)
    (hp : c.txPosition x = some p) (hk : ChainPosition.height p = .confirmed k) (hi : ¬ Invalidated c u.chain k) :
    ∃ y, v.find x = some (y, p) :=
  ht x p k hp hk fun a b ha hb => h.agree hl hi a b ha hb

end Answer

end Verif.Sync
