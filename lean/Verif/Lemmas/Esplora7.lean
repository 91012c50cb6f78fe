import Verif.Lemmas.Esplora6

/-! # Lemmas about the esplora scan: a whole scan of a server that does not change -/

namespace Verif.Esplora
open Verif Spec Verif.Props
variable {T : Type} [LinearOrder T] [AsTransaction T] [LawfulTx T]

theorem stop_iff (w : World T) (all : List (Nat × Script)) (gap k : Nat) (hk : k ≤ all.length) :
    gap ≤ ((all.take k).foldl (tally w) (none, 0)).2 ↔
      gap ≤ k ∧ ∀ j, k - gap ≤ j → j < k → ∃ e, all[j]? = some e ∧ w.history e.2 = [] := by
  rw [tally_empty, List.length_take, min_eq_left hk]
  refine and_congr_right (fun _ => forall_congr' fun j => forall_congr' fun _ => forall_congr' fun hj => ?_)
  rw [List.getElem?_take, if_pos hj]

section
variable {s : Server T} {w : World T} (hs : s.Shows w) (hw : w.Sound)
include hs hw

omit [LawfulTx T] in
theorem batch_static (fuel t : Nat) (l : List (Nat × Script)) (hf : ∀ e ∈ l, (w.confirmed e.2).length ≤ fuel) :
    batch s fuel t l = l.map fun e => (e.1, Out.ok ((w.history e.2).map entry)) := by
  unfold batch
  have : ∀ e ∈ l.zipIdx, (e.1.1, relatedTxs s fuel t e.2 e.1.2) = (e.1.1, Out.ok ((w.history e.1.2).map entry)) := by
    intro e he
    rw [relatedTxs_static hs hw fuel t e.2 e.1.2 (hf _ ((List.mem_zipIdx' he).2 ▸ List.getElem_mem _))]
  rw [List.map_congr_left this]
  conv_rhs => rw [← List.zipIdx_map_fst 0 l]
  rw [List.map_map]
  rfl

theorem batchLoop_static {cps : Nat → Option BlockId} (o : Orders ConfirmationTime T) (gap par fuel : Nat) (hpar : 1 ≤ par)
    (all : List (Nat × Script)) (hf : ∀ e ∈ all, (w.confirmed e.2).length ≤ fuel) (S : Txid → Prop) :
    ∀ (n b : Nat) (st : KState T) (t : Nat), (all.drop (b * par)).length < n →
    Has w cps (fun x => S x ∨ InScripts w (all.take (b * par)) x) st.update →
    (st.lastActive, st.empty) = (all.take (b * par)).foldl (tally w) (none, 0) →
    (∀ b' < b, ¬ gap ≤ ((all.take ((b' + 1) * par)).foldl (tally w) (none, 0)).2) →
    ∃ st' t' m, batchLoop s o w.tip.height gap par fuel n (all.drop (b * par)) st t = .ok (st', t') ∧
      Has w cps (fun x => S x ∨ InScripts w (all.take m) x) st'.update ∧
      st'.lastActive = ((all.take m).foldl (tally w) (none, 0)).1 ∧
      ∀ n, (n < m ∧ n < all.length) ↔ Reached w gap par all n
  | 0, b, st, t, h, _, _, _ => by omega
  | n + 1, b, st, t, hn, hh, hst, hstop => by
    simp only [batchLoop]
    rw [batch_static hs hw fuel t _ (fun e he => hf e (List.mem_of_mem_drop (List.mem_of_mem_take he)))]
    obtain ⟨st1, h1, h2, h3⟩ := handleLoop_static hw o ((all.drop (b * par)).take par) st hh
    rw [h1]
    simp only
    have htake : all.take (b * par) ++ (all.drop (b * par)).take par = all.take ((b + 1) * par) := by
      rw [← List.take_add, Nat.succ_mul]
    have hhas : Has w cps (fun x => S x ∨ InScripts w (all.take ((b + 1) * par)) x) st1.update := by
      refine h2.congr fun x => ?_
      rw [← htake]
      unfold InScripts
      simp only [List.mem_append, or_and_right, exists_or]
      exact or_assoc
    have htal : (st1.lastActive, st1.empty) = (all.take ((b + 1) * par)).foldl (tally w) (none, 0) := by
      rw [h3, hst, ← htake, List.foldl_append]
    have hempty : st1.empty = ((all.take ((b + 1) * par)).foldl (tally w) (none, 0)).2 := by rw [← htal]
    by_cases hc : ((all.drop (b * par)).take par).length = 0 ∨ gap ≤ st1.empty
    · rw [if_pos hc]
      refine ⟨st1, t + 1, (b + 1) * par, rfl, hhas, by rw [← htal], ?_⟩
      intro j
      constructor
      · rintro ⟨hj1, hj2⟩
        refine ⟨hj2, ?_⟩
        rintro ⟨b', hb1, hb2⟩
        have hlt : b' < b := by
          by_contra hge
          have : (b + 1) * par ≤ (b' + 1) * par := Nat.mul_le_mul_right _ (by omega)
          omega
        exact hstop b' hlt ((stop_iff w all gap _ (by omega)).2 hb2)
      · rintro ⟨hj1, hj2⟩
        refine ⟨?_, hj1⟩
        by_contra hge
        have hge : (b + 1) * par ≤ j := by omega
        have hk : (b + 1) * par = b * par + par := Nat.succ_mul _ _
        rcases hc with hc | hc
        · rw [List.length_take, List.length_drop] at hc
          omega
        · rw [hempty] at hc
          exact hj2 ⟨b, hge, (stop_iff w all gap _ (by omega)).1 hc⟩
    · rw [if_neg hc]
      rw [not_or] at hc
      have hdrop : (all.drop (b * par)).drop par = all.drop ((b + 1) * par) := by
        rw [List.drop_drop, Nat.succ_mul]
      rw [hdrop]
      have hk : (b + 1) * par = b * par + par := Nat.succ_mul _ _
      refine batchLoop_static o gap par fuel hpar all hf S n (b + 1) st1 (t + 1) ?_ hhas htal ?_
      · have := hc.1
        rw [List.length_take, List.length_drop] at this
        rw [List.length_drop] at hn ⊢
        omega
      · intro b' hb'
        by_cases e : b' = b
        · rw [e, ← hempty]; exact hc.2
        · exact hstop b' (by omega)

/-- the scan of the scripts of one keychain -/
theorem scripts_static {cps : Nat → Option BlockId} (o : Orders ConfirmationTime T) (gap par fuel : Nat) (hpar : 1 ≤ par)
    (all : List (Nat × Script)) (hf : ∀ e ∈ all, (w.confirmed e.2).length ≤ fuel) (S : Txid → Prop) (u : Update T) (t : Nat)
    (hu : Has w cps S u) :
    ∃ st' t', batchLoop s o w.tip.height gap par fuel (all.length + 1) all ⟨u, none, 0⟩ t = .ok (st', t') ∧
      Has w cps (fun x => S x ∨ ∃ n e tx, Reached w gap par all n ∧ all[n]? = some e ∧ tx ∈ w.history e.2 ∧ (asTx tx.1).txid = x) st'.update ∧
      ∀ i, st'.lastActive = some i ↔ ∃ n spk, Reached w gap par all n ∧ all[n]? = some (i, spk) ∧ w.history spk ≠ [] ∧
        ∀ n' e, n < n' → Reached w gap par all n' → all[n']? = some e → w.history e.2 = [] := by
  obtain ⟨st', t', m, h1, h2, h3, h4⟩ := batchLoop_static hs hw (cps := cps) o gap par fuel hpar all hf S (all.length + 1) 0 ⟨u, none, 0⟩ t
    (by simp) (hu.congr (by simp [InScripts])) (by simp) (by simp)
  rw [Nat.zero_mul, List.drop_zero] at h1
  have hget : ∀ (j : Nat) (e : Nat × Script), (all.take m)[j]? = some e ↔ Reached w gap par all j ∧ all[j]? = some e := by
    intro j e
    rw [← h4, List.getElem?_take]
    constructor
    · intro h
      by_cases hj : j < m
      · rw [if_pos hj] at h
        exact ⟨⟨hj, (List.getElem?_eq_some_iff.1 h).1⟩, h⟩
      · rw [if_neg hj] at h; cases h
    · rintro ⟨⟨hj, -⟩, h⟩
      rw [if_pos hj]; exact h
  refine ⟨st', t', h1, h2.congr fun x => or_congr_right ?_, fun i => ?_⟩
  · constructor
    · rintro ⟨e, he, tx, htx⟩
      obtain ⟨j, hj⟩ := List.mem_iff_getElem?.1 he
      obtain ⟨hr, hj⟩ := (hget j e).1 hj
      exact ⟨j, e, tx, hr, hj, htx⟩
    · rintro ⟨j, e, tx, hr, hj, htx⟩
      exact ⟨e, List.mem_iff_getElem?.2 ⟨j, (hget j e).2 ⟨hr, hj⟩⟩, tx, htx⟩
  · rw [h3, tally_active]
    constructor
    · rintro ⟨n, spk, a, b, c⟩
      obtain ⟨hr, hj⟩ := (hget n _).1 a
      exact ⟨n, spk, hr, hj, b, fun n' e hn hr' he => c n' e hn ((hget n' e).2 ⟨hr', he⟩)⟩
    · rintro ⟨n, spk, hr, hj, b, c⟩
      refine ⟨n, spk, (hget n _).2 ⟨hr, hj⟩, b, fun n' e hn he => ?_⟩
      obtain ⟨hr', he'⟩ := (hget n' e).1 he
      exact c n' e hn hr' he'

end
end Verif.Esplora
