import Verif.Lemmas.Esplora4

/-! # Lemmas about the esplora scan: a server that does not change -/

namespace Verif.Esplora
open Verif Spec Verif.Props
variable {T : Type} [LinearOrder T] [AsTransaction T]

theorem afterTx_split (x : Txid) : ∀ (l : List (T × Place)) (e : T × Place) (r : List (T × Place)),
    ((l ++ e :: r).map fun e => (asTx e.1).txid).Nodup → (asTx e.1).txid = x → afterTx x (l ++ e :: r) = r
  | [], e, r, _, h => by simp [afterTx, h]
  | c :: l, e, r, hn, h => by
    simp only [List.cons_append, List.map_cons, List.nodup_cons] at hn
    have hc : (asTx c.1).txid ≠ x := by
      rintro rfl
      apply hn.1
      rw [← h]
      exact List.mem_map.2 ⟨e, by simp, rfl⟩
    rw [List.cons_append, afterTx, if_neg hc]
    exact afterTx_split x l e r hn.2 h

theorem afterTx_drop (l : List (T × Place)) (hn : (l.map fun e => (asTx e.1).txid).Nodup) (k : Nat) (hk : k < l.length) :
    afterTx (asTx (l[k]).1).txid l = l.drop (k + 1) := by
  have hs : l = l.take k ++ l[k] :: l.drop (k + 1) := by
    rw [← List.drop_eq_getElem_cons hk, List.take_append_drop]
  have := afterTx_split (asTx (l[k]).1).txid (l.take k) l[k] (l.drop (k + 1)) (by rw [← hs]; exact hn) rfl
  rw [← hs] at this
  exact this

section
variable {s : Server T} {w : World T} (hs : s.Shows w) (hw : w.Sound)
include hs hw

theorem settled_nodup (spk : Script) : ((w.settled spk).map fun e => (asTx e.1).txid).Nodup := by
  have := hw.once spk
  unfold World.settled
  rw [List.map_map]
  exact this

theorem pageLoop_static (t i : Nat) (spk : Script) (pre : List (ETx T)) : ∀ (n page k : Nat),
    (w.settled spk).length < k + n → 1 ≤ k → k ≤ (w.settled spk).length →
    pageLoop s t i spk n page (pre ++ ((w.settled spk).take k).map entry) = .ok (pre ++ (w.settled spk).map entry)
  | 0, page, k, h, _, h2 => by omega
  | n + 1, page, k, h, h1, h2 => by
    obtain ⟨j, rfl⟩ : ∃ j, k = j + 1 := ⟨k - 1, by omega⟩
    have hj : j < (w.settled spk).length := by omega
    have hl : (pre ++ ((w.settled spk).take (j + 1)).map entry).getLast? = some (entry (w.settled spk)[j]) := by
      rw [List.take_succ_eq_append_getElem hj, List.map_append, ← List.append_assoc]
      simp
    simp only [pageLoop]
    rw [hl]
    simp only
    have hnext : s.txs t i page spk (some (entry (w.settled spk)[j]).txid) = some ((((w.settled spk).drop (j + 1)).take 25).map entry) := by
      rw [hs.next]
      unfold entry
      rw [afterTx_drop _ (settled_nodup hs hw spk) j hj]
    rw [hnext]
    simp only
    by_cases hlt : ((w.settled spk).drop (j + 1)).length < 25
    · rw [if_pos (by simp only [List.length_map, List.length_take]; omega)]
      rw [List.take_of_length_le (le_of_lt hlt), List.append_assoc, ← List.map_append, List.take_append_drop]
    · rw [if_neg (by simp only [List.length_map, List.length_take]; omega)]
      rw [List.append_assoc, ← List.map_append]
      have : (w.settled spk).take (j + 1) ++ ((w.settled spk).drop (j + 1)).take 25 = (w.settled spk).take (j + 1 + 25) :=
        (List.take_add).symm
      rw [this]
      simp only [List.length_drop] at hlt
      exact pageLoop_static t i spk pre n (page + 1) (j + 1 + 25) (by omega) (by omega) (by omega)

theorem relatedTxs_static (fuel t i : Nat) (spk : Script) (hf : (w.confirmed spk).length ≤ fuel) :
    relatedTxs s fuel t i spk = .ok ((w.history spk).map entry) := by
  unfold relatedTxs
  rw [hs.first]
  simp only
  have hlen : (w.settled spk).length = (w.confirmed spk).length := by unfold World.settled; simp
  have hcount : (((((w.mempool spk).take 50).map (fun t => (t, none)) ++ (w.settled spk).take 25).map entry).filter
      (fun e : ETx T => e.status.confirmed)).length = ((w.settled spk).take 25).length := by
    have h1 : (((((w.mempool spk).take 50).map (fun t => ((t, none) : T × Place))).map entry).filter (fun e : ETx T => e.status.confirmed)) = [] := by
      rw [List.filter_eq_nil_iff]
      intro e he
      rw [List.map_map] at he
      obtain ⟨t, -, rfl⟩ := List.mem_map.1 he
      simp [entry, statusOf]
    have h2 : ((((w.settled spk).take 25).map entry).filter (fun e : ETx T => e.status.confirmed)) = ((w.settled spk).take 25).map entry := by
      rw [List.filter_eq_self]
      intro e he
      obtain ⟨e', he', rfl⟩ := List.mem_map.1 he
      obtain ⟨c, -, rfl⟩ := List.mem_map.1 (List.mem_of_mem_take he')
      simp [entry, statusOf]
    rw [List.map_append, List.filter_append, h1, h2]
    simp only [List.nil_append, List.length_map]
  rw [hcount]
  unfold World.history
  by_cases h : 25 ≤ ((w.settled spk).take 25).length
  · rw [if_pos h, List.map_append, List.map_append]
    rw [List.length_take] at h
    exact pageLoop_static hs hw t i spk _ fuel 1 25 (by omega) (by omega) (by omega)
  · rw [if_neg h]
    rw [List.length_take] at h
    rw [List.take_of_length_le (l := w.settled spk) (by omega)]

end
end Verif.Esplora
