import Verif.Lemmas.Electrum2

/-! # Lemmas about the electrum scan: a server that does not change -/

namespace Verif.Electrum
open Verif Spec SparseChain Verif.Props

variable {w : World} {s : Server}

/-- number of scripts scanned when `c` unused ones were just seen -/
def reach {I : Type} (w : World) (gap : Nat) : Nat → List (I × Script) → Nat
  | _, [] => 0
  | c, e :: l =>
    if w.history e.2 = [] then if gap < c + 1 then 1 else 1 + reach w gap (c + 1) l
    else 1 + reach w gap 0 l

/-- the scan stops after script `m`, `c` unused scripts having been seen before the list -/
def StopAt {I : Type} (w : World) (gap c : Nat) (l : List (I × Script)) (m : Nat) : Prop :=
  (∃ i, i + gap ≤ m ∧ ∀ j, i ≤ j → j ≤ m → ∃ e, l[j]? = some e ∧ w.history e.2 = []) ∨
  (gap < c + m + 1 ∧ ∀ j, j ≤ m → ∃ e, l[j]? = some e ∧ w.history e.2 = [])

theorem lt_reach {I : Type} (gap : Nat) : ∀ (l : List (I × Script)) (c n : Nat),
    n < reach w gap c l ↔ n < l.length ∧ ∀ m < n, ¬ StopAt w gap c l m
  | [], c, n => by simp [reach]
  | e :: l, c, n => by
    have hpos : 0 < reach w gap c (e :: l) := by
      simp only [reach]; split
      · split <;> omega
      · omega
    cases n with
    | zero => simp [hpos]
    | succ n =>
      by_cases hu : w.history e.2 = []
      · by_cases hg : gap < c + 1
        · simp only [reach, if_pos hu, if_pos hg]
          constructor
          · intro h; omega
          · rintro ⟨-, h⟩
            refine absurd (.inr ⟨by omega, ?_⟩) (h 0 (by omega))
            intro j hj
            have : j = 0 := by omega
            subst this
            exact ⟨e, rfl, hu⟩
        · simp only [reach, if_pos hu, if_neg hg]
          have h0 : ¬ StopAt w gap c (e :: l) 0 := by
            rintro (⟨i, hi, -⟩ | ⟨hi, -⟩) <;> omega
          have hs : ∀ m, StopAt w gap c (e :: l) (m + 1) ↔ StopAt w gap (c + 1) l m := by
            intro m
            constructor
            · rintro (⟨i, hi, h⟩ | ⟨hi, h⟩)
              · cases i with
                | zero =>
                  refine .inr ⟨by omega, fun j hj => ?_⟩
                  have := h (j + 1) (by omega) (by omega)
                  simpa using this
                | succ i =>
                  refine .inl ⟨i, by omega, fun j h1 h2 => ?_⟩
                  have := h (j + 1) (by omega) (by omega)
                  simpa using this
              · refine .inr ⟨by omega, fun j hj => ?_⟩
                have := h (j + 1) (by omega)
                simpa using this
            · rintro (⟨i, hi, h⟩ | ⟨hi, h⟩)
              · refine .inl ⟨i + 1, by omega, fun j h1 h2 => ?_⟩
                cases j with
                | zero => omega
                | succ j => simpa using h j (by omega) (by omega)
              · refine .inr ⟨by omega, fun j h1 => ?_⟩
                cases j with
                | zero => exact ⟨e, rfl, hu⟩
                | succ j => simpa using h j (by omega)
          have ih := lt_reach gap l (c + 1) n
          constructor
          · intro h
            obtain ⟨h1, h2⟩ := ih.1 (by omega)
            refine ⟨by simp; omega, ?_⟩
            intro m hm
            cases m with
            | zero => exact h0
            | succ m => rw [hs]; exact h2 m (by omega)
          · rintro ⟨h1, h2⟩
            have := ih.2 ⟨by simp at h1; omega, fun m hm => by rw [← hs]; exact h2 (m + 1) (by omega)⟩
            omega
      · simp only [reach, if_neg hu]
        have h0 : ∀ m : Nat, ¬ (∀ j : Nat, j ≤ m → ∃ e' : I × Script, (e :: l)[j]? = some e' ∧ w.history e'.2 = []) := by
          intro m h
          obtain ⟨e', h1, h2⟩ := h 0 (by omega)
          simp at h1; subst h1; exact hu h2
        have h00 : ¬ StopAt w gap c (e :: l) 0 := by
          rintro (⟨i, hi, h⟩ | ⟨hi, h⟩)
          · have : i = 0 := by omega
            subst this
            exact h0 0 (fun j hj => h j (by omega) hj)
          · exact h0 _ h
        have hs : ∀ m, StopAt w gap c (e :: l) (m + 1) ↔ StopAt w gap 0 l m := by
          intro m
          constructor
          · rintro (⟨i, hi, h⟩ | ⟨hi, h⟩)
            · cases i with
              | zero => exact absurd (fun j hj => h j (by omega) hj) (h0 _)
              | succ i =>
                refine .inl ⟨i, by omega, fun j h1 h2 => ?_⟩
                have := h (j + 1) (by omega) (by omega)
                simpa using this
            · exact absurd h (h0 _)
          · rintro (⟨i, hi, h⟩ | ⟨hi, h⟩)
            · refine .inl ⟨i + 1, by omega, fun j h1 h2 => ?_⟩
              cases j with
              | zero => omega
              | succ j => simpa using h j (by omega) (by omega)
            · refine .inl ⟨1, by omega, fun j h1 h2 => ?_⟩
              cases j with
              | zero => omega
              | succ j => simpa using h j (by omega)
        have ih := lt_reach gap l 0 n
        constructor
        · intro h
          obtain ⟨h1, h2⟩ := ih.1 (by omega)
          refine ⟨by simp; omega, ?_⟩
          intro m hm
          cases m with
          | zero => exact h00
          | succ m => rw [hs]; exact h2 m (by omega)
        · rintro ⟨h1, h2⟩
          have := ih.2 ⟨by simp at h1; omega, fun m hm => by rw [← hs]; exact h2 (m + 1) (by omega)⟩
          omega

theorem reached_iff {I : Type} {gap : Nat} {l : List (I × Script)} {n : Nat} :
    Reached w gap l n ↔ n < reach w gap 0 l := by
  rw [lt_reach]
  unfold Reached
  refine and_congr_right (fun _ => ?_)
  constructor
  · intro h m hm hs
    apply h
    rcases hs with ⟨i, hi, h2⟩ | ⟨hi, h2⟩
    · exact ⟨m - gap, by omega, fun j h3 h4 => h2 j (by omega) (by omega)⟩
    · exact ⟨m - gap, by omega, fun j h3 h4 => h2 j (by omega)⟩
  · rintro h ⟨i, hi, h2⟩
    exact h (i + gap) hi (.inl ⟨i, le_refl _, h2⟩)

theorem reach_le {I : Type} (gap : Nat) : ∀ (c : Nat) (l : List (I × Script)), reach w gap c l ≤ l.length
  | _, [] => by simp [reach]
  | c, e :: l => by
    have h1 := reach_le gap (c + 1) l
    have h2 := reach_le gap 0 l
    simp only [reach, List.length_cons]
    split
    · split <;> omega
    · omega

/-- `pos` is the position of every transaction the world lists, relative to the tip -/
def PosFn (w : World) (tip : Nat) (pos : Txid → TxHeight) : Prop :=
  ∀ k x raw, (x, raw) ∈ w.history k → determineTxHeight raw tip x = pos x

theorem exists_posFn (hw : w.Sound) (tip : Nat) : ∃ pos, PosFn w tip pos := by
  classical
  refine ⟨fun x => if h : ∃ k raw, (x, raw) ∈ w.history k then determineTxHeight h.choose_spec.choose tip x
    else .unconfirmed, ?_⟩
  intro k x raw h
  have hex : ∃ k raw, (x, raw) ∈ w.history k := ⟨k, raw, h⟩
  simp only [dif_pos hex]
  rw [hw.one_height _ _ _ _ _ h hex.choose_spec.choose_spec]

/-- the transactions of `u'` are those of `u` and those in `S`, all at their position -/
structure Adds (cps : Nat → Option BlockId) (tip : Nat) (pos : Txid → TxHeight) (u u' : Update) (S : Txid → Prop) : Prop where
  upd : Upd u' cps tip
  true : AllPos (fun x p => p = pos x) u'
  mem : ∀ x, u'.txPosition x = some (pos x) ↔ u.txPosition x = some (pos x) ∨ S x

theorem Adds.trans {cps : Nat → Option BlockId} {tip : Nat} {pos : Txid → TxHeight} {u u1 u2 : Update} {S S1 S2 : Txid → Prop}
    (h1 : Adds cps tip pos u u1 S1) (h2 : Adds cps tip pos u1 u2 S2) (hS : ∀ x, S x ↔ S1 x ∨ S2 x) :
    Adds cps tip pos u u2 S :=
  ⟨h2.upd, h2.true, fun x => by rw [h2.mem, h1.mem, hS, or_assoc]⟩

theorem Adds.refl {cps : Nat → Option BlockId} {tip : Nat} {pos : Txid → TxHeight} {u : Update}
    (h1 : Upd u cps tip) (h2 : AllPos (fun x p => p = pos x) u) {S : Txid → Prop}
    (hS : ∀ x, S x → u.txPosition x = some (pos x)) : Adds cps tip pos u u S :=
  ⟨h1, h2, fun x => ⟨.inl, fun h => h.elim id (hS x)⟩⟩

theorem putTx_static {cps : Nat → Option BlockId} {tip : Nat} {pos : Txid → TxHeight} {u : Update} (hu : Upd u cps tip)
    (ht : AllPos (fun x p => p = pos x) u) (ho : Order) (x : Txid) (raw : Int) (hx : determineTxHeight raw tip x = pos x) :
    ∃ u', putTx ho u x (determineTxHeight raw tip x) = (u', .ok ()) ∧ Adds cps tip pos u u' (fun y => y = x) := by
  obtain ⟨h1, h2⟩ := putTx_cases hu ho x _ (fun h e => determine_le raw tip x h e)
  rcases hp : putTx ho u x (determineTxHeight raw tip x) with ⟨u', o⟩
  rw [hp] at h1 h2
  rcases h2 with ⟨h2, h3⟩ | ⟨-, -, o', h, h4, h5, -⟩
  · simp only at h2 h3 h1
    subst h2
    refine ⟨u', rfl, h1, ?_, ?_⟩
    · intro y p hy
      rw [h3] at hy
      by_cases e : y = x
      · rw [if_pos e] at hy; cases hy; rw [e]; exact hx
      · rw [if_neg e] at hy; exact ht y p hy
    · intro y
      rw [h3]
      by_cases e : y = x
      · subst e; simp [hx]
      · simp [e]
  · exact absurd ((ht x o' h4).trans hx.symm) h5

theorem putHistory_static {cps : Nat → Option BlockId} {tip : Nat} {pos : Txid → TxHeight} (ho : Order) :
    ∀ (l : List (Txid × Int)) (u : Update), Upd u cps tip → AllPos (fun x p => p = pos x) u →
    (∀ x raw, (x, raw) ∈ l → determineTxHeight raw tip x = pos x) →
    ∃ u', putHistory ho tip l u = (u', .ok ()) ∧ Adds cps tip pos u u' (fun y => ∃ raw, (y, raw) ∈ l)
  | [], u, hu, ht, _ => ⟨u, rfl, Adds.refl hu ht (by simp)⟩
  | (x, raw) :: l, u, hu, ht, hl => by
    obtain ⟨u1, h1, h2⟩ := putTx_static hu ht ho x raw (hl x raw List.mem_cons_self)
    obtain ⟨u2, h3, h4⟩ := putHistory_static ho l u1 h2.upd h2.true (fun x r h => hl x r (List.mem_cons_of_mem _ h))
    refine ⟨u2, ?_, h2.trans h4 ?_⟩
    · simp only [putHistory, h1]; exact h3
    · intro y
      constructor
      · rintro ⟨r, hr⟩
        rcases List.mem_cons.1 hr with e | hr
        · cases e; exact .inl rfl
        · exact .inr ⟨r, hr⟩
      · rintro (rfl | ⟨r, hr⟩)
        · exact ⟨raw, List.mem_cons_self⟩
        · exact ⟨r, List.mem_cons_of_mem _ hr⟩

variable {I : Type} [LinearOrder I]

/-- the map of scanned scripts after scanning `l` -/
def noteScanned (w : World) (m : OMap I (Script × Bool)) (l : List (I × Script)) : OMap I (Script × Bool) :=
  l.foldl (fun m e => m.insert e.1 (e.2, decide (w.history e.2 ≠ []))) m

/-- transactions in the histories of the scripts -/
def InHist (w : World) (l : List (I × Script)) (x : Txid) : Prop := ∃ e ∈ l, ∃ raw, (x, raw) ∈ w.history e.2

theorem spkLoop_static {cps : Nat → Option BlockId} {tip : Nat} {pos : Txid → TxHeight} (hpos : PosFn w tip pos)
    (ho : Order) (gap : Nat) : ∀ (l : List (I × Script)) (st : SpkState I), Upd st.update cps tip →
    AllPos (fun x p => p = pos x) st.update →
    ∃ st' b, spkLoop ho tip gap (l.map (fun e => (e, w.history e.2))) st = (st', .ok b) ∧
      st'.scanned = noteScanned w st.scanned (l.take (reach w gap st.unused l)) ∧
      Adds cps tip pos st.update st'.update (InHist w (l.take (reach w gap st.unused l)))
  | [], st, hu, ht => ⟨st, false, rfl, rfl, Adds.refl hu ht (by simp [InHist, reach])⟩
  | (i, spk) :: l, st, hu, ht => by
    have cons_inHist : ∀ n x, InHist w (((i, spk) :: l).take (1 + n)) x ↔
        (∃ raw, (x, raw) ∈ w.history spk) ∨ InHist w (l.take n) x := by
      intro n x
      rw [Nat.add_comm, List.take_succ_cons]
      unfold InHist
      simp
    cases hh : w.history spk with
    | nil =>
      have hspk : w.history (i, spk).2 = [] := hh
      have hdec : (decide (w.history spk ≠ [])) = false := by simp [hh]
      simp only [List.map_cons, hh, spkLoop]
      by_cases hg : gap < st.unused + 1
      · rw [if_pos hg]
        refine ⟨_, _, rfl, ?_, ?_⟩
        · simp only [reach, if_pos hspk, if_pos hg]
          simp [noteScanned, hh]
        · simp only [reach, if_pos hspk, if_pos hg]
          exact Adds.refl hu ht (by simp [InHist, hh])
      · rw [if_neg hg]
        obtain ⟨st', b, h1, h2, h3⟩ := spkLoop_static hpos ho gap l
          ⟨st.update, st.scanned.insert i (spk, false), st.unused + 1⟩ hu ht
        refine ⟨st', b, h1, ?_, ?_⟩
        · simp only [reach, if_pos hspk, if_neg hg]
          rw [h2, Nat.add_comm 1, List.take_succ_cons]
          simp [noteScanned, hh]
        · simp only [reach, if_pos hspk, if_neg hg]
          refine ⟨h3.upd, h3.true, fun x => ?_⟩
          rw [h3.mem, cons_inHist]
          simp [hh]
    | cons a as =>
      have hspk : ¬ w.history (i, spk).2 = [] := by rw [hh]; simp
      obtain ⟨u1, h4, h5⟩ := putHistory_static ho (a :: as) st.update hu ht (fun x raw h => hpos spk x raw (hh ▸ h))
      obtain ⟨st', b, h1, h2, h3⟩ := spkLoop_static hpos ho gap l ⟨u1, st.scanned.insert i (spk, true), 0⟩ h5.upd h5.true
      simp only [List.map_cons, hh, spkLoop, h4]
      refine ⟨st', b, h1, ?_, ?_⟩
      · simp only [reach, if_neg hspk]
        rw [h2, Nat.add_comm 1, List.take_succ_cons]
        simp [noteScanned, hh]
      · simp only [reach, if_neg hspk]
        refine h5.trans h3 (fun x => ?_)
        rw [cons_inHist, hh]

theorem spkLoop_append (ho : Order) (tip gap : Nat) : ∀ (a b : List ((I × Script) × List (Txid × Int))) (st : SpkState I),
    (∀ st', spkLoop ho tip gap a st = (st', .ok false) → spkLoop ho tip gap (a ++ b) st = spkLoop ho tip gap b st') ∧
    (∀ r, spkLoop ho tip gap a st = r → r.2 ≠ .ok false → spkLoop ho tip gap (a ++ b) st = r)
  | [], b, st => by
    constructor
    · intro st' h
      simp only [spkLoop, Prod.mk.injEq] at h
      rw [← h.1]; rfl
    · rintro r rfl h; simp [spkLoop] at h
  | ((i, spk), []) :: a, b, st => by
    have ih := spkLoop_append ho tip gap a b ⟨st.update, st.scanned.insert i (spk, false), st.unused + 1⟩
    simp only [List.cons_append, spkLoop]
    by_cases hg : gap < st.unused + 1
    · rw [if_pos hg, if_pos hg]
      exact ⟨fun st' h => by simp at h, fun r h _ => h⟩
    · rw [if_neg hg, if_neg hg]; exact ih
  | ((i, spk), e :: es) :: a, b, st => by
    simp only [List.cons_append, spkLoop]
    rcases putHistory ho tip (e :: es) st.update with ⟨u, o⟩
    cases o with
    | ok _ => exact spkLoop_append ho tip gap a b _
    | reorg => exact ⟨fun st' h => by simp at h, fun r h _ => h⟩
    | error => exact ⟨fun st' h => by simp at h, fun r h _ => h⟩
    | panic => exact ⟨fun st' h => by simp at h, fun r h _ => h⟩
    | pending => exact ⟨fun st' h => by simp at h, fun r h _ => h⟩

theorem mapM_history (hs : s.Shows w) (t : Nat) : ∀ l : List (I × Script),
    l.mapM (fun e => s.history t e.2) = some (l.map (fun e => w.history e.2))
  | [] => rfl
  | e :: l => by
    rw [List.mapM_cons, hs.2.2.1, mapM_history hs t l]
    rfl

theorem zip_map_self {α β : Type} (f : α → β) : ∀ l : List α, l.zip (l.map f) = l.map (fun e => (e, f e))
  | [] => rfl
  | a :: l => by simp [zip_map_self f l]

/-- with a fixed server the batches do not matter -/
theorem populateLoop_static (hs : s.Shows w) (ho : Order) (tip gap bs : Nat) (hbs : 0 < bs) :
    ∀ (n : Nat) (spks : List (I × Script)) (st st' : SpkState I) (b : Bool) (t : Nat), spks.length < n →
    spkLoop ho tip gap (spks.map (fun e => (e, w.history e.2))) st = (st', .ok b) →
    ∃ rest t', populateLoop s ho tip gap bs n spks st t = ⟨st'.update, st'.scanned, rest, .ok (), t'⟩
  | 0, spks, st, st', b, t, hn, _ => absurd hn (Nat.not_lt_zero _)
  | n + 1, spks, st, st', b, t, hn, h => by
    simp only [populateLoop]
    by_cases he : (spks.take bs).isEmpty = true
    · rw [if_pos he]
      have : spks = [] := by
        cases spks with
        | nil => rfl
        | cons a l =>
          cases bs with
          | zero => omega
          | succ k => simp at he
      subst this
      simp only [List.map_nil, spkLoop, Prod.mk.injEq] at h
      rw [← h.1]
      exact ⟨_, _, rfl⟩
    · rw [if_neg he, mapM_history hs]
      simp only
      rw [zip_map_self]
      have hsplit : spks.map (fun e => (e, w.history e.2)) =
          (spks.take bs).map (fun e => (e, w.history e.2)) ++ (spks.drop bs).map (fun e => (e, w.history e.2)) := by
        rw [← List.map_append, List.take_append_drop]
      rw [hsplit] at h
      obtain ⟨ha, hb⟩ := spkLoop_append ho tip gap ((spks.take bs).map (fun e => (e, w.history e.2)))
        ((spks.drop bs).map (fun e => (e, w.history e.2))) st
      rcases hr : spkLoop ho tip gap ((spks.take bs).map (fun e => (e, w.history e.2))) st with ⟨st1, o⟩
      have hlen : (spks.drop bs).length < n := by
        have : spks ≠ [] := by rintro rfl; simp at he
        have := List.length_pos_iff.2 this
        rw [List.length_drop]; omega
      cases o with
      | ok b1 =>
        cases b1 with
        | false =>
          rw [ha st1 hr] at h
          exact populateLoop_static hs ho tip gap bs hbs n _ st1 st' b (t + 1) hlen h
        | true =>
          rw [hb _ hr (by simp)] at h
          cases h
          exact ⟨_, _, rfl⟩
      | reorg => rw [hb _ hr (by simp)] at h; cases h
      | error => rw [hb _ hr (by simp)] at h; cases h
      | panic => rw [hb _ hr (by simp)] at h; cases h
      | pending => rw [hb _ hr (by simp)] at h; cases h

theorem populateWithSpks_static {cps : Nat → Option BlockId} {tip : Nat} {pos : Txid → TxHeight} (hs : s.Shows w)
    (hpos : PosFn w tip pos) {u : Update} (hu : Upd u cps tip) (ht : AllPos (fun x p => p = pos x) u) (ho : Order)
    (spks : List (I × Script)) (gap bs : Nat) (hbs : 0 < bs) (t : Nat) :
    ∃ u' rest t', populateWithSpks s ho u spks gap bs t =
      ⟨u', noteScanned w OMap.empty (spks.take (reach w gap 0 spks)), rest, .ok (), t'⟩ ∧
      Adds cps tip pos u u' (InHist w (spks.take (reach w gap 0 spks))) := by
  obtain ⟨st', b, h1, h2, h3⟩ := spkLoop_static hpos ho gap spks ⟨u, OMap.empty, 0⟩ hu ht
  obtain ⟨rest, t', h4⟩ := populateLoop_static hs ho tip gap bs hbs (spks.length + 1) spks ⟨u, OMap.empty, 0⟩ st' b t
    (Nat.lt_succ_self _) h1
  refine ⟨st'.update, rest, t', ?_, h3⟩
  rw [populateWithSpks_eq hu, h4, h2]

theorem txidLoop_static {cps : Nat → Option BlockId} {tip : Nat} {pos : Txid → TxHeight} (hs : s.Shows w)
    (hpos : PosFn w tip pos) (ho : Order) (hout : ∀ x tx, w.tx x = some tx → tx.output ≠ []) :
    ∀ (l : List Txid) (u : Update) (t : Nat), Upd u cps tip → AllPos (fun x p => p = pos x) u →
    ∃ u' t', txidLoop s ho tip l u t = ((u', .ok ()), t') ∧
      Adds cps tip pos u u' (fun x => ∃ raw, FoundByTxid w l x raw)
  | [], u, t, hu, ht => ⟨u, t, rfl, Adds.refl hu ht (by simp [FoundByTxid])⟩
  | x :: l, u, t, hu, ht => by
    have hcons : ∀ y raw, FoundByTxid w (x :: l) y raw ↔ FoundByTxid w [x] y raw ∨ FoundByTxid w l y raw := by
      intro y raw; unfold FoundByTxid; simp only [List.mem_cons, List.not_mem_nil, or_false, or_and_right]
    have skip : (∀ raw, ¬ FoundByTxid w [x] x raw) → ∀ t, ∃ u' t', txidLoop s ho tip l u t = ((u', .ok ()), t') ∧
        Adds cps tip pos u u' (fun y => ∃ raw, FoundByTxid w (x :: l) y raw) := by
      intro hno t
      obtain ⟨u', t', h1, h2⟩ := txidLoop_static hs hpos ho hout l u t hu ht
      refine ⟨u', t', h1, h2.upd, h2.true, fun y => ?_⟩
      rw [h2.mem]
      have : (∃ raw, FoundByTxid w (x :: l) y raw) ↔ ∃ raw, FoundByTxid w l y raw := by
        refine exists_congr (fun raw => ?_)
        rw [hcons]
        refine or_iff_right ?_
        intro h
        have : y = x := by simpa using h.1
        subst this
        exact hno raw h
      rw [this]
    have htx := hs.2.2.2 t x
    simp only [txidLoop]
    cases hx : w.tx x with
    | none =>
      rw [hx] at htx
      rw [htx]
      exact skip (by rintro raw ⟨-, tx, o, h, -⟩; rw [hx] at h; cases h) _
    | some tx =>
      rw [hx] at htx
      rw [htx]
      simp only
      cases ho' : tx.output.head? with
      | none => exact absurd (List.head?_eq_none_iff.1 ho') (hout x tx hx)
      | some o =>
        have ho2 : tx.output[0]? = some o := by rw [← ho', List.head?_eq_getElem?]
        simp only [hs.2.2.1]
        cases hf : (w.history o.spk).find? (fun r => decide (r.1 = x)) with
        | none =>
          refine skip ?_ _
          rintro raw ⟨-, tx', o', h1, h2, h3⟩
          rw [hx] at h1; cases h1
          rw [ho2] at h2; cases h2
          have := List.find?_eq_none.1 hf _ h3
          simp at this
        | some r =>
          have hr1 : r.1 = x := by simpa using List.find?_some hf
          have hmem : (x, r.2) ∈ w.history o.spk := hr1 ▸ List.mem_of_find?_eq_some hf
          obtain ⟨u1, h1, h2⟩ := putTx_static hu ht ho x r.2 (hpos _ _ _ hmem)
          simp only [hr1, h1]
          obtain ⟨u', t', h3, h4⟩ := txidLoop_static hs hpos ho hout l u1 (t + 2) h2.upd h2.true
          refine ⟨u', t', h3, h2.trans h4 (fun y => ?_)⟩
          constructor
          · rintro ⟨raw, h⟩
            rcases (hcons y raw).1 h with h | h
            · exact .inl (by simpa using h.1)
            · exact .inr ⟨raw, h⟩
          · rintro (rfl | ⟨raw, h⟩)
            · exact ⟨r.2, (hcons _ _).2 (.inl ⟨by simp, tx, o, hx, ho2, hmem⟩)⟩
            · exact ⟨raw, (hcons _ _).2 (.inr h)⟩

/-- the entry concerns the outpoint: it contains it or spends it -/
def Relevant (w : World) (op : OutPoint) (x : Txid) : Prop := x = op.txid ∨ ∃ tx', w.tx x = some tx' ∧ op ∈ tx'.input

theorem opTx_static (hs : s.Shows w) {st : OpState} (hfull : ∀ x tx, st.full.get x = some tx → w.tx x = some tx)
    {x : Txid} {tx : Tx} (hx : w.tx x = some tx) :
    ∃ st', opTx s st x = (st', some tx) ∧ st'.update = st.update ∧ st'.residing = st.residing ∧
      st'.spending = st.spending ∧ ∀ x tx, st'.full.get x = some tx → w.tx x = some tx := by
  unfold opTx
  cases hf : st.full.get x with
  | some tx' =>
    have := hfull x tx' hf
    rw [hx] at this; cases this
    exact ⟨st, rfl, rfl, rfl, rfl, hfull⟩
  | none =>
    have htx := hs.2.2.2 st.time x
    rw [hx] at htx
    rw [htx]
    refine ⟨_, rfl, rfl, rfl, rfl, ?_⟩
    intro y ty hy
    simp only [OMap.get_insert] at hy
    by_cases e : y = x
    · rw [if_pos e] at hy; cases hy; rw [e]; exact hx
    · rw [if_neg e] at hy; exact hfull y ty hy

theorem opLoop_static {cps : Nat → Option BlockId} {tip : Nat} {pos : Txid → TxHeight} (hs : s.Shows w)
    (hpos : PosFn w tip pos) (ho : Order) {ops : List OutPoint} (hc : w.Complete ops) (op : OutPoint) (hop : op ∈ ops) (tx : Tx)
    (htx : w.tx op.txid = some tx) (k : Script) :
    ∀ (l : List (Txid × Int)) (st : OpState), (∀ e ∈ l, e ∈ w.history k) → Upd st.update cps tip →
    AllPos (fun x p => p = pos x) st.update → (∀ x tx, st.full.get x = some tx → w.tx x = some tx) →
    (st.residing = true → st.update.txPosition op.txid = some (pos op.txid)) →
    (st.spending = true → ∃ z tz a, (z, a) ∈ w.history k ∧ w.tx z = some tz ∧ op ∈ tz.input ∧
      st.update.txPosition z = some (pos z)) →
    ∃ st', opLoop s ho tip op tx l st = (st', .ok ()) ∧ (∀ x tx, st'.full.get x = some tx → w.tx x = some tx) ∧
      Adds cps tip pos st.update st'.update (fun x => ∃ raw, (x, raw) ∈ l ∧ Relevant w op x)
  | [], st, _, hu, ht, hfull, _, _ => ⟨st, rfl, hfull, Adds.refl hu ht (by simp)⟩
  | r :: l, st, hsub, hu, ht, hfull, hres, hspend => by
    have hr := hsub r List.mem_cons_self
    have hsub' := fun e he => hsub e (List.mem_cons_of_mem r he)
    have hsame : ∀ z tz a y ty b, (z, a) ∈ w.history k → w.tx z = some tz → op ∈ tz.input → (y, b) ∈ w.history k →
        w.tx y = some ty → op ∈ ty.input → y = z :=
      fun z tz a y ty b h1 h2 h3 h4 h5 h6 => hc.no_double_spend k op hop y z b a ty tz h4 h1 h5 h2 h6 h3
    -- go on without inserting: the entry is not relevant or already there
    have go : ∀ st1 : OpState, st1.update = st.update → st1.residing = st.residing → st1.spending = st.spending →
        (∀ x tx, st1.full.get x = some tx → w.tx x = some tx) →
        (Relevant w op r.1 → st.update.txPosition r.1 = some (pos r.1)) →
        ∃ st', opLoop s ho tip op tx l st1 = (st', .ok ()) ∧ (∀ x tx, st'.full.get x = some tx → w.tx x = some tx) ∧
          Adds cps tip pos st.update st'.update (fun x => ∃ raw, (x, raw) ∈ r :: l ∧ Relevant w op x) := by
      intro st1 e1 e2 e3 e4 e5
      obtain ⟨st', h1, h2, h3⟩ := opLoop_static hs hpos ho hc op hop tx htx k l st1 hsub' (e1 ▸ hu) (e1 ▸ ht) e4
        (by rw [e2, e1]; exact hres) (by rw [e3, e1]; exact hspend)
      rw [e1] at h3
      refine ⟨st', h1, h2, h3.upd, h3.true, fun x => ?_⟩
      rw [h3.mem]
      constructor
      · rintro (h | ⟨raw, h4, h5⟩)
        · exact .inl h
        · exact .inr ⟨raw, List.mem_cons_of_mem _ h4, h5⟩
      · rintro (h | ⟨raw, h4, h5⟩)
        · exact .inl h
        · rcases List.mem_cons.1 h4 with rfl | h4
          · exact .inl (e5 h5)
          · exact .inr ⟨raw, h4, h5⟩
    -- insert the entry
    have put : ∀ st1 : OpState, st1.update = st.update → Relevant w op r.1 →
        (∀ x tx, st1.full.get x = some tx → w.tx x = some tx) →
        (st1.residing = true → st.residing = true ∨ op.txid = r.1) →
        (st1.spending = true → st.spending = true ∨ ∃ tz, w.tx r.1 = some tz ∧ op ∈ tz.input) →
        ∃ st', (match opPut ho tip st1 r with
          | (st'', .ok _) => opLoop s ho tip op tx l st''
          | q => q) = (st', .ok ()) ∧ (∀ x tx, st'.full.get x = some tx → w.tx x = some tx) ∧
          Adds cps tip pos st.update st'.update (fun x => ∃ raw, (x, raw) ∈ r :: l ∧ Relevant w op x) := by
      intro st1 e1 hrel hf1 h5 h6
      obtain ⟨u1, h1, h2⟩ := putTx_static hu ht ho r.1 r.2 (hpos k r.1 r.2 hr)
      rw [opPut_eq, e1, h1]
      have hmono : ∀ y, st.update.txPosition y = some (pos y) → u1.txPosition y = some (pos y) :=
        fun y hy => (h2.mem y).2 (.inl hy)
      obtain ⟨st', h3, h4, h7⟩ := opLoop_static hs hpos ho hc op hop tx htx k l { st1 with update := u1 } hsub' h2.upd h2.true hf1
        (by
          intro h
          rcases h5 h with h | h
          · exact hmono _ (hres h)
          · exact (h2.mem _).2 (.inr h))
        (by
          intro h
          rcases h6 h with h | ⟨tz, h8, h9⟩
          · obtain ⟨z, tz, a, h8, h9, h10, h11⟩ := hspend h
            exact ⟨z, tz, a, h8, h9, h10, hmono _ h11⟩
          · exact ⟨r.1, tz, r.2, hr, h8, h9, (h2.mem _).2 (.inr rfl)⟩)
      refine ⟨st', h3, h4, h2.trans h7 (fun x => ?_)⟩
      constructor
      · rintro ⟨raw, h8, h9⟩
        rcases List.mem_cons.1 h8 with rfl | h8
        · exact .inl rfl
        · exact .inr ⟨raw, h8, h9⟩
      · rintro (rfl | ⟨raw, h8, h9⟩)
        · exact ⟨r.2, List.mem_cons_self, hrel⟩
        · exact ⟨raw, List.mem_cons_of_mem _ h8, h9⟩
    have spent : st.spending = true → ∀ y b, (y, b) ∈ w.history k → y ≠ op.txid → Relevant w op y →
        st.update.txPosition y = some (pos y) := by
      intro h y b hy hne hrel
      obtain ⟨z, tz, a, h8, h9, h10, h11⟩ := hspend h
      rcases hrel with h12 | ⟨ty, h12, h13⟩
      · exact absurd h12 hne
      · rw [hsame z tz a y ty b h8 h9 h10 hy h12 h13]; exact h11
    simp only [opLoop]
    by_cases h1 : (st.residing && st.spending) = true
    · rw [if_pos h1]
      rw [Bool.and_eq_true] at h1
      refine ⟨st, rfl, hfull, Adds.refl hu ht ?_⟩
      rintro x ⟨raw, h2, h3⟩
      by_cases e : x = op.txid
      · rw [e]; exact hres h1.1
      · exact spent h1.2 x raw (hsub _ h2) e h3
    · rw [if_neg h1]
      by_cases h2 : r.1 = op.txid
      · rw [if_pos h2]
        by_cases h3 : st.residing = true
        · rw [if_pos h3]
          exact go st rfl rfl rfl hfull (fun _ => by rw [h2]; exact hres h3)
        · rw [if_neg h3]
          refine put _ rfl (.inl h2) ?_ (fun _ => .inr h2.symm) (fun h => .inl h)
          intro y ty hy
          simp only [OMap.get_insert] at hy
          by_cases e : y = r.1
          · rw [if_pos e] at hy; cases hy; rw [e, h2]; exact htx
          · rw [if_neg e] at hy; exact hfull y ty hy
      · rw [if_neg h2]
        by_cases h4 : st.spending = true
        · rw [if_pos h4]
          exact go st rfl rfl rfl hfull (fun h => spent h4 r.1 r.2 hr h2 h)
        · rw [if_neg h4]
          obtain ⟨rtx, hrtx⟩ := hc.listed k r.1 r.2 hr
          obtain ⟨st1, h5, h6, h7, h8, h9⟩ := opTx_static hs hfull hrtx
          rw [h5]
          simp only
          by_cases h10 : decide (op ∈ rtx.input) = true
          · rw [if_pos h10]
            rw [decide_eq_true_eq] at h10
            exact put _ h6 (.inr ⟨rtx, hrtx, h10⟩) h9 (fun h => .inl (h7 ▸ h)) (fun _ => .inr ⟨rtx, hrtx, h10⟩)
          · rw [if_neg h10]
            rw [decide_eq_true_eq] at h10
            refine go st1 h6 h7 h8 h9 ?_
            rintro (h | ⟨ty, h11, h12⟩)
            · exact absurd h h2
            · rw [hrtx] at h11; cases h11; exact absurd h12 h10

theorem outpointLoop_static {cps : Nat → Option BlockId} {tip : Nat} {pos : Txid → TxHeight} (hs : s.Shows w)
    (hpos : PosFn w tip pos) (ho : Order) {ops : List OutPoint} (hc : w.Complete ops) :
    ∀ (l : List OutPoint) (u : Update) (full : OMap Txid Tx) (t : Nat), (∀ o ∈ l, o ∈ ops) → Upd u cps tip →
    AllPos (fun x p => p = pos x) u → (∀ x tx, full.get x = some tx → w.tx x = some tx) →
    ∃ u' t', outpointLoop s ho tip l u full t = ((u', .ok ()), t') ∧
      Adds cps tip pos u u' (fun x => ∃ raw, FoundByOutpoint w l x raw)
  | [], u, full, t, _, hu, ht, _ => ⟨u, t, rfl, Adds.refl hu ht (by simp [FoundByOutpoint])⟩
  | op :: l, u, full, t, hsub, hu, ht, hfull => by
    have hcons : ∀ y raw, FoundByOutpoint w (op :: l) y raw ↔ FoundByOutpoint w [op] y raw ∨ FoundByOutpoint w l y raw := by
      intro y raw; unfold FoundByOutpoint; simp
    obtain ⟨tx, hx⟩ := hc.ops_known op (hsub op List.mem_cons_self)
    have htx := hs.2.2.2 t op.txid
    rw [hx] at htx
    simp only [outpointLoop, htx]
    cases ho' : tx.output[op.vout.val]? with
    | none =>
      obtain ⟨u', t', h1, h2⟩ := outpointLoop_static hs hpos ho hc l u full (t + 1) (fun o h => hsub o (List.mem_cons_of_mem _ h))
        hu ht hfull
      refine ⟨u', t', h1, h2.upd, h2.true, fun y => ?_⟩
      rw [h2.mem]
      have : (∃ raw, FoundByOutpoint w (op :: l) y raw) ↔ ∃ raw, FoundByOutpoint w l y raw := by
        refine exists_congr (fun raw => ?_)
        rw [hcons]
        refine or_iff_right ?_
        rintro ⟨op', hop, tx', o', h3, h4, -⟩
        have : op' = op := by simpa using hop
        subst this
        rw [hx] at h3; cases h3
        rw [ho'] at h4; cases h4
      rw [this]
    | some o =>
      simp only [hs.2.2.1]
      obtain ⟨st', h1, h2, h3⟩ := opLoop_static hs hpos ho hc op (hsub op List.mem_cons_self) tx hx o.spk (w.history o.spk) ⟨u, full, false, false, t + 2⟩
        (fun _ h => h) hu ht hfull (fun h => by cases h) (fun h => by cases h)
      rw [h1]
      simp only
      obtain ⟨u', t', h4, h5⟩ := outpointLoop_static hs hpos ho hc l st'.update st'.full st'.time
        (fun o h => hsub o (List.mem_cons_of_mem _ h)) h3.upd h3.true h2
      refine ⟨u', t', h4, h3.trans h5 (fun y => ?_)⟩
      have h1 : (∃ raw, (y, raw) ∈ w.history o.spk ∧ Relevant w op y) ↔ ∃ raw, FoundByOutpoint w [op] y raw := by
        refine exists_congr (fun raw => ?_)
        unfold FoundByOutpoint Relevant
        constructor
        · rintro ⟨h6, h7⟩
          exact ⟨op, by simp, tx, o, hx, ho', h6, h7⟩
        · rintro ⟨op', hop, tx', o', h6, h7, h8, h9⟩
          have : op' = op := by simpa using hop
          subst this
          rw [hx] at h6; cases h6
          rw [ho'] at h7; cases h7
          exact ⟨h8, h9⟩
      rw [h1, ← exists_or]
      exact exists_congr (fun raw => hcons y raw)

end Verif.Electrum
