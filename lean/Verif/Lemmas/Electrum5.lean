import Verif.Lemmas.Electrum4
import Mathlib.Data.List.Perm.Subperm

/-!
# Activity of scripts: what any server can make a scan report
-/

namespace Verif.Electrum
open Verif Verif.Spec

variable {I : Type} [LinearOrder I]

/-- answers given from time `t0` on justify the flags -/
def Flags (s : Server) (t0 : Nat) (R : Script → Bool → Prop) : Prop :=
  ∀ t ≥ t0, ∀ spk l, s.history t spk = some l → R spk (!l.isEmpty)

theorem spkLoop_flags {R : Script → Bool → Prop} (ho : Order) (tip gap : Nat) :
    ∀ (l : List ((I × Script) × List (Txid × Int))) (st : SpkState I), (∀ e ∈ l, R e.1.2 (!e.2.isEmpty)) →
    let q := spkLoop ho tip gap l st
    (∀ i v, q.1.scanned.get i = some v → st.scanned.get i = some v ∨ (∃ e ∈ l, e.1 = (i, v.1)) ∧ R v.1 v.2) ∧
    (∀ i, st.scanned.get i ≠ none → q.1.scanned.get i ≠ none) ∧
    (st.unused + l.length ≤ gap → q.2 ≠ .ok true) ∧
    (q.2 = .ok false → q.1.unused ≤ st.unused + l.length ∧ ∀ e ∈ l, q.1.scanned.get e.1.1 ≠ none)
  | [], st, _ => by
    simp only [spkLoop]
    exact ⟨fun i v h => .inl h, fun _ h => h, fun _ h => by simp at h, fun _ => ⟨by simp, by simp⟩⟩
  | ((i, spk), hist) :: l, st, hR => by
    have hR' : ∀ e ∈ l, R e.1.2 (!e.2.isEmpty) := fun e he => hR e (List.mem_cons_of_mem _ he)
    have h0 := hR _ List.mem_cons_self
    cases hist with
    | nil =>
      simp only [spkLoop]
      have ih := spkLoop_flags (R := R) ho tip gap l ⟨st.update, st.scanned.insert i (spk, false), st.unused + 1⟩ hR'
      simp only at ih
      obtain ⟨i1, i2, i3, i4⟩ := ih
      have hins : ∀ j v, (st.scanned.insert i (spk, false)).get j = some v → st.scanned.get j = some v ∨
          (∃ e ∈ ((i, spk), ([] : List (Txid × Int))) :: l, e.1 = (j, v.1)) ∧ R v.1 v.2 := by
        intro j v hv
        rw [OMap.get_insert] at hv
        split at hv
        · next e =>
          cases hv
          right
          exact ⟨⟨_, List.mem_cons_self, by rw [e]⟩, h0⟩
        · exact .inl hv
      have hkeep : ∀ j, st.scanned.get j ≠ none → (st.scanned.insert i (spk, false)).get j ≠ none := by
        intro j hj
        rw [OMap.get_insert]
        split
        · simp
        · exact hj
      by_cases hg : gap < st.unused + 1
      · rw [if_pos hg]
        refine ⟨fun j v h => hins j v h, hkeep, fun h => ?_, fun h => by simp at h⟩
        simp only [List.length_cons] at h
        omega
      · rw [if_neg hg]
        refine ⟨?_, fun j hj => i2 j (hkeep j hj), ?_, ?_⟩
        · intro j v h
          rcases i1 j v h with h | ⟨⟨e, he1, he2⟩, h2⟩
          · exact hins j v h
          · exact .inr ⟨⟨e, List.mem_cons_of_mem _ he1, he2⟩, h2⟩
        · intro h
          simp only [List.length_cons] at h
          exact i3 (by omega)
        · intro h
          obtain ⟨a, b⟩ := i4 h
          refine ⟨by simp only [List.length_cons]; omega, fun e he => ?_⟩
          rcases List.mem_cons.1 he with rfl | he
          · apply i2
            rw [OMap.get_insert, if_pos rfl]; simp
          · exact b e he
    | cons x xs =>
      simp only [spkLoop]
      have hins : ∀ j v, (st.scanned.insert i (spk, true)).get j = some v → st.scanned.get j = some v ∨
          (∃ e ∈ ((i, spk), x :: xs) :: l, e.1 = (j, v.1)) ∧ R v.1 v.2 := by
        intro j v hv
        rw [OMap.get_insert] at hv
        split at hv
        · next e =>
          cases hv
          right
          exact ⟨⟨_, List.mem_cons_self, by rw [e]⟩, h0⟩
        · exact .inl hv
      have hkeep : ∀ j, st.scanned.get j ≠ none → (st.scanned.insert i (spk, true)).get j ≠ none := by
        intro j hj
        rw [OMap.get_insert]
        split
        · simp
        · exact hj
      rcases hp : putHistory ho tip (x :: xs) st.update with ⟨u, o⟩
      cases o with
      | ok _ =>
        simp only
        have ih := spkLoop_flags (R := R) ho tip gap l ⟨u, st.scanned.insert i (spk, true), 0⟩ hR'
        simp only at ih
        obtain ⟨i1, i2, i3, i4⟩ := ih
        refine ⟨?_, fun j hj => i2 j (hkeep j hj), ?_, ?_⟩
        · intro j v h
          rcases i1 j v h with h | ⟨⟨e, he1, he2⟩, h2⟩
          · exact hins j v h
          · exact .inr ⟨⟨e, List.mem_cons_of_mem _ he1, he2⟩, h2⟩
        · intro h
          simp only [List.length_cons] at h
          exact i3 (by omega)
        · intro h
          obtain ⟨a, b⟩ := i4 h
          refine ⟨by simp only [List.length_cons]; omega, fun e he => ?_⟩
          rcases List.mem_cons.1 he with rfl | he
          · apply i2
            rw [OMap.get_insert, if_pos rfl]; simp
          · exact b e he
      | reorg => exact ⟨hins, hkeep, fun _ h => by simp at h, fun h => by simp at h⟩
      | error => exact ⟨hins, hkeep, fun _ h => by simp at h, fun h => by simp at h⟩
      | panic => exact ⟨hins, hkeep, fun _ h => by simp at h, fun h => by simp at h⟩
      | pending => exact ⟨hins, hkeep, fun _ h => by simp at h, fun h => by simp at h⟩

theorem mapM_zip {α β : Type} {f : α → Option β} : ∀ {l : List α} {r : List β}, l.mapM f = some r →
    r.length = l.length ∧ ∀ e ∈ l.zip r, f e.1 = some e.2
  | [], r, h => by simp at h; subst h; simp
  | a :: l, r, h => by
    rw [List.mapM_cons] at h
    cases h1 : f a with
    | none => rw [h1] at h; cases h
    | some y =>
      cases h2 : l.mapM f with
      | none => rw [h1, h2] at h; cases h
      | some ys =>
        rw [h1, h2] at h
        have : y :: ys = r := by simpa using h
        subst this
        obtain ⟨i1, i2⟩ := mapM_zip h2
        refine ⟨by simp [i1], fun e he => ?_⟩
        rw [List.zip_cons_cons] at he
        rcases List.mem_cons.1 he with rfl | he
        · exact h1
        · exact i2 e he

/-- what is known after asking for the histories of some scripts, whatever the outcome -/
structure Asked (R : Script → Bool → Prop) (gap bs : Nat) (spks : List (I × Script)) (sc : OMap I (Script × Bool)) (un t : Nat)
    (r : SpkResult I) : Prop where
  time : t ≤ r.time
  rest : ∀ e ∈ r.rest, e ∈ spks
  flag : ∀ i v, r.scanned.get i = some v → sc.get i = some v ∨ (i, v.1) ∈ spks ∧ R v.1 v.2
  keep : ∀ i, sc.get i ≠ none → r.scanned.get i ≠ none
  all : 0 < bs → un + spks.length ≤ gap → r.out = .ok () → ∀ e ∈ spks, r.scanned.get e.1 ≠ none

theorem populateLoop_flags {R : Script → Bool → Prop} {s : Server} {t0 : Nat} (hf : Flags s t0 R) (ho : Order) (tip gap bs : Nat) :
    ∀ (n : Nat) (spks : List (I × Script)) (st : SpkState I) (t : Nat), t0 ≤ t → spks.length < n →
      Asked R gap bs spks st.scanned st.unused t (populateLoop s ho tip gap bs n spks st t)
  | 0, spks, st, t, _, h => by omega
  | n + 1, spks, st, t, ht, hn => by
    simp only [populateLoop]
    by_cases he : (spks.take bs).isEmpty = true
    · rw [if_pos he]
      refine ⟨le_refl _, fun e h => h, fun i v h => .inl h, fun i h => h, fun hb _ _ e hes => ?_⟩
      exfalso
      rw [List.isEmpty_iff, List.take_eq_nil_iff] at he
      rcases he with he | he
      · omega
      · rw [he] at hes; cases hes
    · rw [if_neg he]
      cases hm : (spks.take bs).mapM (fun e => s.history t e.2) with
      | none =>
        exact ⟨Nat.le_succ _, fun e h => List.mem_of_mem_drop h, fun i v h => .inl h, fun i h => h, fun _ _ h => by simp at h⟩
      | some hists =>
        obtain ⟨hlen, hz⟩ := mapM_zip hm
        have hk := spkLoop_flags (R := R) ho tip gap ((spks.take bs).zip hists) st (by
          intro e he
          exact hf t ht e.1.2 e.2 (hz e he))
        simp only at hk ⊢
        rcases hp : spkLoop ho tip gap ((spks.take bs).zip hists) st with ⟨st', o⟩
        rw [hp] at hk
        simp only at hk
        obtain ⟨k1, k2, k3, k4⟩ := hk
        have k1' : ∀ i v, st'.scanned.get i = some v → st.scanned.get i = some v ∨ (i, v.1) ∈ spks ∧ R v.1 v.2 := by
          intro i v h
          rcases k1 i v h with h | ⟨⟨e, he1, he2⟩, h2⟩
          · exact .inl h
          · refine .inr ⟨?_, h2⟩
            rw [← he2]
            exact List.mem_of_mem_take (List.of_mem_zip he1).1
        have hzl : ((spks.take bs).zip hists).length = min bs spks.length := by
          rw [List.length_zip, hlen, List.length_take]; omega
        cases o with
        | ok b =>
          cases b with
          | true =>
            refine ⟨Nat.le_succ _, fun e h => List.mem_of_mem_drop h, k1', k2, fun _ hg _ => ?_⟩
            exact absurd rfl (k3 (by rw [hzl]; omega))
          | false =>
            simp only
            have hne : 0 < spks.length ∧ 0 < bs := by
              rw [List.isEmpty_iff, List.take_eq_nil_iff, not_or] at he
              exact ⟨List.length_pos_iff.2 he.2, Nat.pos_of_ne_zero he.1⟩
            have ih := populateLoop_flags hf ho tip gap bs n (spks.drop bs) st' (t + 1) (by omega) (by rw [List.length_drop]; omega)
            obtain ⟨m1, m2⟩ := k4 rfl
            refine ⟨by have := ih.time; omega, fun e h => List.mem_of_mem_drop (ih.rest e h), ?_, fun i h => ih.keep i (k2 i h), ?_⟩
            · intro i v h
              rcases ih.flag i v h with h | ⟨h1, h2⟩
              · exact k1' i v h
              · exact .inr ⟨List.mem_of_mem_drop h1, h2⟩
            · intro hb hg ho e he
              rw [← List.take_append_drop bs spks, List.mem_append] at he
              rcases he with he | he
              · apply ih.keep
                obtain ⟨j, hj⟩ := List.getElem?_of_mem he
                obtain ⟨hj1, hj2⟩ := List.getElem?_eq_some_iff.1 hj
                have hm2 : (e, hists[j]'(by omega)) ∈ (spks.take bs).zip hists := by
                  rw [List.mem_iff_getElem]
                  refine ⟨j, by rw [List.length_zip]; omega, ?_⟩
                  rw [List.getElem_zip, hj2]
                exact m2 _ hm2
              · refine ih.all hb ?_ ho e he
                rw [List.length_drop]
                rw [hzl] at m1
                omega
        | reorg => exact ⟨Nat.le_succ _, fun e h => List.mem_of_mem_drop h, k1', k2, fun _ _ h => by simp at h⟩
        | error => exact ⟨Nat.le_succ _, fun e h => List.mem_of_mem_drop h, k1', k2, fun _ _ h => by simp at h⟩
        | panic => exact ⟨Nat.le_succ _, fun e h => List.mem_of_mem_drop h, k1', k2, fun _ _ h => by simp at h⟩
        | pending => exact ⟨Nat.le_succ _, fun e h => List.mem_of_mem_drop h, k1', k2, fun _ _ h => by simp at h⟩

theorem populateWithSpks_flags {R : Script → Bool → Prop} {s : Server} {t0 : Nat} (hf : Flags s t0 R) (ho : Order) (u : Update)
    (gap bs : Nat) (spks : List (I × Script)) (t : Nat) (ht : t0 ≤ t) :
    Asked R gap bs spks OMap.empty 0 t (populateWithSpks s ho u spks gap bs t) :=
  populateLoop_flags hf ho _ gap bs _ spks ⟨u, OMap.empty, 0⟩ t ht (Nat.lt_succ_self _)

variable {K : Type} [LinearOrder K]

/-- the scripts a scan has asked about are scripts it was given -/
structure Known (ks : OMap K (List (Nat × Script))) (st : ScanState K) : Prop where
  reqs : ∀ k l, (k, l) ∈ st.requests → ∃ l0, ks.get k = some l0 ∧ ∀ e ∈ l, e ∈ l0
  scanned : ∀ k i v, st.scanned.get (toLex (k, i)) = some v → ∃ l0, ks.get k = some l0 ∧ (i, v.1) ∈ l0

theorem keychainLoop_flags {R : Script → Bool → Prop} {s : Server} {t0 : Nat} (hf : Flags s t0 R) (ho : Order) (gap bs : Nat)
    (ks : OMap K (List (Nat × Script))) :
    ∀ (l : List (K × List (Nat × Script))) (u : Update) (sc : OMap (K ×ₗ Nat) (Script × Bool)) (t : Nat), t0 ≤ t →
      Known ks ⟨l, sc⟩ →
      let q := keychainLoop s ho gap bs l u sc t
      t ≤ q.2.2 ∧ Known ks q.1.1 ∧
        ((∀ k i v, sc.get (toLex (k, i)) = some v → R v.1 v.2) → ∀ k i v, q.1.1.scanned.get (toLex (k, i)) = some v → R v.1 v.2)
  | [], u, sc, t, ht, hk => by simp only [keychainLoop]; exact ⟨le_refl _, hk, fun h => h⟩
  | (k, spks) :: l, u, sc, t, ht, hk => by
    have ha := populateWithSpks_flags hf ho u gap bs spks t ht
    obtain ⟨l0, hl0, hsub⟩ := hk.reqs k spks List.mem_cons_self
    have hcons : ∀ (rest : List (Nat × Script)) (st : ScanState K), (∀ e ∈ rest, e ∈ spks) → Known ks st →
        Known ks ⟨(k, rest) :: st.requests, st.scanned⟩ := by
      intro rest st hrest hst
      refine ⟨?_, hst.scanned⟩
      intro k' l' hm
      rcases List.mem_cons.1 hm with h | h
      · cases h; exact ⟨l0, hl0, fun e he => hsub e (hrest e he)⟩
      · exact hst.reqs k' l' h
    have htl : Known ks ⟨l, sc⟩ := ⟨fun k' l' h => hk.reqs k' l' (List.mem_cons_of_mem _ h), hk.scanned⟩
    simp only [keychainLoop]
    cases hout : (populateWithSpks s ho u spks gap bs t).out with
    | ok x =>
      simp only
      have hsc : ∀ k' i v, ((populateWithSpks s ho u spks gap bs t).scanned.entries.foldl
          (fun m e => m.insert (toLex (k, e.1)) e.2) sc).get (toLex (k', i)) = some v →
          sc.get (toLex (k', i)) = some v ∨ k' = k ∧ (i, v.1) ∈ spks ∧ R v.1 v.2 := by
        intro k' i v h
        rw [scannedInto_get] at h
        by_cases hkk : k' = k
        · rw [if_pos hkk] at h
          rcases hg : (populateWithSpks s ho u spks gap bs t).scanned.get i with _ | w
          · rw [hg] at h; exact .inl h
          · rw [hg] at h
            cases h
            rcases ha.flag i v hg with h | ⟨h1, h2⟩
            · cases h
            · exact .inr ⟨hkk, h1, h2⟩
        · rw [if_neg hkk] at h; exact .inl h
      have ih := keychainLoop_flags hf ho gap bs ks l (populateWithSpks s ho u spks gap bs t).update
        ((populateWithSpks s ho u spks gap bs t).scanned.entries.foldl (fun m e => m.insert (toLex (k, e.1)) e.2) sc)
        (populateWithSpks s ho u spks gap bs t).time (le_trans ht ha.time) ⟨htl.reqs, by
          intro k' i v h
          rcases hsc k' i v h with h | ⟨rfl, h1, -⟩
          · exact hk.scanned k' i v h
          · exact ⟨l0, hl0, hsub _ h1⟩⟩
      simp only at ih
      obtain ⟨i1, i2, i3⟩ := ih
      refine ⟨le_trans ha.time i1, hcons _ _ ha.rest i2, fun h0 => i3 ?_⟩
      intro k' i v h
      rcases hsc k' i v h with h | ⟨-, -, h2⟩
      · exact h0 k' i v h
      · exact h2
    | reorg =>
      simp only
      have ih := keychainLoop_flags hf ho gap bs ks l (populateWithSpks s ho u spks gap bs t).update sc
        (populateWithSpks s ho u spks gap bs t).time (le_trans ht ha.time) htl
      simp only at ih
      obtain ⟨i1, i2, i3⟩ := ih
      exact ⟨le_trans ha.time i1, hcons _ _ ha.rest i2, i3⟩
    | error => exact ⟨ha.time, hcons _ ⟨l, sc⟩ ha.rest htl, fun h => h⟩
    | panic => exact ⟨ha.time, hcons _ ⟨l, sc⟩ ha.rest htl, fun h => h⟩
    | pending => exact ⟨ha.time, hcons _ ⟨l, sc⟩ ha.rest htl, fun h => h⟩

/-- number of scripts given -/
def totalSpks (ks : OMap K (List (Nat × Script))) : Nat := (ks.entries.map fun e => e.2.length).sum

theorem scanned_size {ks : OMap K (List (Nat × Script))} {st : ScanState K} (h : Known ks st) :
    st.scanned.entries.length ≤ totalSpks ks := by
  have h1 : (st.scanned.entries.map Prod.fst).Nodup := st.scanned.keys_nodup
  have h2 : st.scanned.entries.map Prod.fst ⊆ ks.entries.flatMap fun e => e.2.map fun x => toLex (e.1, x.1) := by
    intro a ha
    obtain ⟨⟨a', v⟩, hm, rfl⟩ := List.mem_map.1 ha
    have hg := OMap.mem_entries.1 hm
    obtain ⟨l0, e1, e2⟩ := h.scanned (ofLex a').1 (ofLex a').2 v hg
    exact List.mem_flatMap.2 ⟨((ofLex a').1, l0), OMap.mem_entries.2 e1, List.mem_map.2 ⟨_, e2, rfl⟩⟩
  have h3 := (List.subperm_of_subset h1 h2).length_le
  rw [List.length_map, List.length_flatMap] at h3
  simpa [totalSpks] using h3

/-- every flag is justified -/
def AllFlags (R : Script → Bool → Prop) (sc : OMap (K ×ₗ Nat) (Script × Bool)) : Prop :=
  ∀ k i v, sc.get (toLex (k, i)) = some v → R v.1 v.2

theorem rescan_flags {R : Script → Bool → Prop} {s : Server} {t0 : Nat} (hf : Flags s t0 R) (ho : Order) (gap bs : Nat)
    (ks : OMap K (List (Nat × Script))) (st : ScanState K) (u : Update) (t : Nat) (ht : t0 ≤ t) (hk : Known ks st) :
    let q := rescan s ho gap bs st.scanned u t
    t ≤ q.2.2 ∧ Known ks ⟨st.requests, q.1.1⟩ ∧ (AllFlags R st.scanned → AllFlags R q.1.1) ∧
      (q.2.1 = .ok () → 0 < bs → totalSpks ks ≤ gap → AllFlags R q.1.1) := by
  simp only [rescan]
  by_cases he : st.scanned.isEmpty = true
  · rw [if_pos he]
    refine ⟨le_refl _, hk, fun h => h, fun _ _ _ k i v h => ?_⟩
    have h' := OMap.isEmpty_iff.1 he
    rw [h'] at h
    cases h
  · rw [if_neg he]
    have ha := populateWithSpks_flags hf ho u gap bs (st.scanned.entries.map (fun e => (e.1, e.2.1))) t ht
    generalize populateWithSpks s ho u (st.scanned.entries.map (fun e => (e.1, e.2.1))) gap bs t = r at ha
    have hsub : ∀ a v, r.scanned.get a = some v → ∃ b, st.scanned.get a = some (v.1, b) := by
      intro a v hv
      rcases ha.flag a v hv with h | ⟨h, -⟩
      · cases h
      · obtain ⟨e, e1, e2⟩ := List.mem_map.1 h
        have := OMap.mem_entries.1 e1
        rw [(Prod.mk.inj e2).1] at this
        refine ⟨e.2.2, ?_⟩
        rw [this, ← (Prod.mk.inj e2).2]
    have hkn : Known ks ⟨st.requests, st.scanned.append r.scanned⟩ := by
      refine ⟨hk.reqs, fun k i v h => ?_⟩
      simp only [OMap.get_append] at h
      rcases hg : r.scanned.get (toLex (k, i)) with _ | w
      · rw [hg] at h; exact hk.scanned k i v h
      · rw [hg] at h
        obtain ⟨b, hb⟩ := hsub _ _ hg
        cases h
        exact hk.scanned k i (v.1, b) hb
    cases hout : r.out with
    | ok x =>
      simp only
      refine ⟨ha.time, hkn, fun h0 k i v h => ?_, fun _ hb hg k i v h => ?_⟩
      · rw [OMap.get_append] at h
        rcases hgr : r.scanned.get (toLex (k, i)) with _ | w
        · rw [hgr] at h; exact h0 k i v h
        · rw [hgr] at h
          cases h
          rcases ha.flag _ _ hgr with h | ⟨-, h⟩
          · cases h
          · exact h
      · rw [OMap.get_append] at h
        rcases hgr : r.scanned.get (toLex (k, i)) with _ | w
        · rw [hgr] at h
          exfalso
          have h' : st.scanned.get (toLex (k, i)) = some v := h
          refine ha.all hb ?_ hout (toLex (k, i), v.1) (List.mem_map.2 ⟨(_, v), OMap.mem_entries.2 h', rfl⟩) hgr
          rw [List.length_map]
          have := scanned_size hk
          omega
        · rw [hgr] at h
          cases h
          rcases ha.flag _ _ hgr with h | ⟨-, h⟩
          · cases h
          · exact h
    | reorg => exact ⟨ha.time, hk, fun h => h, fun h => by simp at h⟩
    | error => exact ⟨ha.time, hk, fun h => h, fun h => by simp at h⟩
    | panic => exact ⟨ha.time, hk, fun h => h, fun h => by simp at h⟩
    | pending => exact ⟨ha.time, hk, fun h => h, fun h => by simp at h⟩

theorem keychainLoop_keys (s : Server) (ho : Order) (gap bs : Nat) :
    ∀ (l : List (K × List (Nat × Script))) (u : Update) (sc : OMap (K ×ₗ Nat) (Script × Bool)) (t : Nat),
      (keychainLoop s ho gap bs l u sc t).1.1.requests.map Prod.fst = l.map Prod.fst
  | [], u, sc, t => rfl
  | (k, spks) :: l, u, sc, t => by
    simp only [keychainLoop]
    cases hout : (populateWithSpks s ho u spks gap bs t).out with
    | ok x => simp only [List.map_cons]; rw [keychainLoop_keys s ho gap bs l]
    | reorg => simp only [List.map_cons]; rw [keychainLoop_keys s ho gap bs l]
    | error => rfl
    | panic => rfl
    | pending => rfl

theorem scriptPart_flags {R : Script → Bool → Prop} {s : Server} {t0 : Nat} (hf : Flags s t0 R) (ho : Order) (gap bs : Nat)
    (ks : OMap K (List (Nat × Script))) (st : ScanState K) (u : Update) (t : Nat) (ht : t0 ≤ t) (hk : Known ks st) :
    let q := scriptPart s ho gap bs st u t
    Known ks q.1.1 ∧ q.1.1.requests.map Prod.fst = st.requests.map Prod.fst ∧
      (AllFlags R st.scanned → AllFlags R q.1.1.scanned) ∧
      (q.2.1 = .ok () → 0 < bs → totalSpks ks ≤ gap → st.requests ≠ [] → AllFlags R q.1.1.scanned) := by
  simp only [scriptPart]
  by_cases he : st.requests.isEmpty = true
  · rw [if_pos he]
    exact ⟨hk, rfl, fun h => h, fun _ _ _ h => absurd (List.isEmpty_iff.1 he) h⟩
  · rw [if_neg he]
    have hr := rescan_flags hf ho gap bs ks st u t ht hk
    simp only at hr
    rcases hq : rescan s ho gap bs st.scanned u t with ⟨⟨sc, u1⟩, o, t1⟩
    rw [hq] at hr
    obtain ⟨r1, r2, r3, r4⟩ := hr
    cases o with
    | ok x =>
      simp only
      have hl := keychainLoop_flags hf ho gap bs ks st.requests u1 sc t1 (le_trans ht r1) r2
      simp only at hl
      obtain ⟨-, l2, l3⟩ := hl
      exact ⟨l2, keychainLoop_keys s ho gap bs _ _ _ _, fun h => l3 (r3 h), fun _ hb hg _ => l3 (r4 rfl hb hg)⟩
    | reorg => exact ⟨r2, rfl, r3, fun h => by simp at h⟩
    | error => exact ⟨r2, rfl, r3, fun h => by simp at h⟩
    | panic => exact ⟨r2, rfl, r3, fun h => by simp at h⟩
    | pending => exact ⟨r2, rfl, r3, fun h => by simp at h⟩

/-- a script had a history in an answer from time `lo` on; `false` asserts nothing -/
def ActiveReported (s : Server) (lo : Nat) (spk : Script) (active : Bool) : Prop :=
  active = true → ∃ t l, lo ≤ t ∧ s.history t spk = some l ∧ l ≠ []

theorem flags_active (s : Server) (lo : Nat) : Flags s lo (ActiveReported s lo) :=
  fun t ht spk l h ha => ⟨t, l, ht, h, by intro e; rw [e] at ha; simp at ha⟩

theorem scanRound_flags (s : Server) (ho : Order) (m : OMap Nat BlockHash) (txids : List Txid) (ops : List OutPoint)
    (gap bs fuel : Nat) (ks : OMap K (List (Nat × Script))) (st : ScanState K) (t : Nat) (hk : Known ks st) :
    let q := scanRound s ho m txids ops gap bs fuel st t
    Known ks q.1 ∧ q.1.requests.map Prod.fst = st.requests.map Prod.fst ∧
      (AllFlags (ActiveReported s 0) st.scanned → AllFlags (ActiveReported s 0) q.1.scanned) ∧
      ∀ u T u0, q.2.1 = .ok u → prepareUpdate s ho m fuel t = (.ok u0, T + 1) → 0 < bs → totalSpks ks ≤ gap →
        st.requests ≠ [] → AllFlags (ActiveReported s (T + 1)) q.1.scanned := by
  simp only [scanRound]
  rcases hp : prepareUpdate s ho m fuel t with ⟨o, t1⟩
  cases o with
  | reorg => exact ⟨hk, rfl, fun h => h, fun _ _ _ h => by simp at h⟩
  | panic => exact ⟨hk, rfl, fun h => h, fun _ _ _ h => by simp at h⟩
  | error => exact ⟨hk, rfl, fun h => h, fun _ _ _ h => by simp at h⟩
  | pending => exact ⟨hk, rfl, fun h => h, fun _ _ _ h => by simp at h⟩
  | ok u =>
    simp only
    have hA := scriptPart_flags (flags_active s 0) ho gap bs ks st u t1 (Nat.zero_le _) hk
    have hB := fun h => scriptPart_flags (flags_active s t1) ho gap bs ks st u t1 h hk
    rcases hp2 : scriptPart s ho gap bs st u t1 with ⟨⟨st', u1⟩, o, t2⟩
    rw [hp2] at hA hB
    obtain ⟨a1, a2, a3, -⟩ := hA
    obtain ⟨-, -, -, b4⟩ := hB (le_refl _)
    cases o with
    | reorg => exact ⟨a1, a2, a3, fun _ _ _ h => by simp at h⟩
    | panic => exact ⟨a1, a2, a3, fun _ _ _ h => by simp at h⟩
    | error => exact ⟨a1, a2, a3, fun _ _ _ h => by simp at h⟩
    | pending => exact ⟨a1, a2, a3, fun _ _ _ h => by simp at h⟩
    | ok x =>
      refine ⟨a1, a2, a3, fun u' T u0 _ h2 hb hg hne => ?_⟩
      obtain ⟨-, rfl⟩ := Prod.mk.inj h2
      exact b4 rfl hb hg hne

theorem scanLoop_flags (s : Server) (ho : Order) (m : OMap Nat BlockHash) (hsm : SmallTips s) (hout : HasOutputs s)
    (hm : ∀ h x, m.get h = some x → h < u32Max) (txids : List Txid) (ops : List OutPoint) (gap bs : Nat)
    (ks : OMap K (List (Nat × Script))) :
    ∀ (n : Nat) (st : ScanState K) (t : Nat), Known ks st → AllFlags (ActiveReported s 0) st.scanned →
    ∀ st' u, scanLoop s ho m txids ops gap bs n st t = .ok (st', u) →
      Known ks st' ∧ st'.requests.map Prod.fst = st.requests.map Prod.fst ∧ AllFlags (ActiveReported s 0) st'.scanned ∧
      ∃ tip T t2, Finished s m t u tip T t2 ∧
        (0 < bs → totalSpks ks ≤ gap → st.requests ≠ [] → AllFlags (ActiveReported s (T + 1)) st'.scanned)
  | 0, st, t, _, _, st', u, h => by simp [scanLoop] at h
  | n + 1, st, t, hk, hf, st', u, h => by
    obtain ⟨s1, s2, s3⟩ := scanRound_spec s ho m hsm hout hm txids ops gap bs (n + 1) st t
    have hr := scanRound_flags s ho m txids ops gap bs (n + 1) ks st t hk
    simp only [scanLoop] at h
    rcases hp : scanRound s ho m txids ops gap bs (n + 1) st t with ⟨st1, o, t'⟩
    rw [hp] at h hr s1 s2 s3
    obtain ⟨r1, r2, r3, r4⟩ := hr
    cases o with
    | ok u1 =>
      cases h
      obtain ⟨tip, T, t2, f1, u0, f2⟩ := s3 _ rfl
      exact ⟨r1, r2, r3 hf, tip, T, t2, f1, fun hb hg hne => r4 _ T u0 rfl f2 hb hg hne⟩
    | reorg =>
      obtain ⟨i1, i2, i3, tip, T, t2, i4, i5⟩ := scanLoop_flags s ho m hsm hout hm txids ops gap bs ks n st1 t' r1 (r3 hf) st' u h
      refine ⟨i1, i2.trans r2, i3, tip, T, t2, i4.since s2, fun hb hg hne => i5 hb hg ?_⟩
      intro e
      apply hne
      have r2' : st1.requests.map Prod.fst = st.requests.map Prod.fst := r2
      rw [e] at r2'
      simpa using r2'.symm
    | error => cases h
    | panic => cases h
    | pending => cases h

end Verif.Electrum
