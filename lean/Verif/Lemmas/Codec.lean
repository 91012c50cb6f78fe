import Verif.Model.Codec
import Verif.Lemmas.Tracker

/-!
# The encoding is lawful
-/

namespace Verif
namespace Codec

theorem append_split {α : Type} {p q a b : List α} (h : p ++ q = a ++ b) (hq : q ≠ []) :
    (∃ q', p ++ q' = a ∧ q' ≠ []) ∨ (∃ p', p = a ++ p' ∧ p' ++ q = b) := by
  rcases List.append_eq_append_iff.1 h with ⟨c, h1, h2⟩ | ⟨c, h1, h2⟩
  · by_cases hc : c = []
    · subst hc
      right; refine ⟨[], ?_, ?_⟩
      · simpa using h1.symm
      · simpa using h2
    · left; exact ⟨c, h1.symm, hc⟩
  · right; exact ⟨c, h1, h2.symm⟩

theorem bind_ok {α β : Type} {r : DecRes α} {k : α → Bytes → DecRes β} {b : β} {rest : Bytes}
    (h : r.bind k = .ok b rest) : ∃ a r', r = .ok a r' ∧ k a r' = .ok b rest := by
  cases r with
  | ok a r' => exact ⟨a, r', rfl, h⟩
  | eof => cases h
  | bad => cases h

theorem leBytes_length (k n : Nat) : (leBytes k n).length = k := by
  induction k generalizing n with
  | zero => rfl
  | succ k ih => simp [leBytes, ih]

theorem readLE_round (k n : Nat) (r : Bytes) (h : n < 256 ^ k) : readLE k (leBytes k n ++ r) = .ok n r := by
  induction k generalizing n with
  | zero => simp at h; subst h; rfl
  | succ k ih =>
    have h1 : n / 256 < 256 ^ k := by
      rw [Nat.div_lt_iff_lt_mul (by decide)]
      rw [Nat.pow_succ] at h; exact h
    simp only [leBytes, List.cons_append, readLE, ih _ h1, DecRes.bind, UInt8.toNat_ofNat', DecRes.ok.injEq, and_true]
    omega

theorem readLE_short (k : Nat) (bs : Bytes) (h : bs.length < k) : readLE k bs = .eof := by
  induction k generalizing bs with
  | zero => omega
  | succ k ih =>
    cases bs with
    | nil => rfl
    | cons b bs => simp only [List.length_cons] at h; simp [readLE, ih bs (by omega), DecRes.bind]

theorem readLE_loc (k : Nat) (bs : Bytes) (a : Nat) (r : Bytes) (h : readLE k bs = .ok a r) :
    ∃ u, bs = u ++ r ∧ u.length = k ∧ ∀ r', readLE k (u ++ r') = .ok a r' := by
  induction k generalizing bs a with
  | zero => simp only [readLE, DecRes.ok.injEq] at h; obtain ⟨rfl, rfl⟩ := h; exact ⟨[], rfl, rfl, fun _ => rfl⟩
  | succ k ih =>
    cases bs with
    | nil => cases h
    | cons b bs =>
      simp only [readLE] at h
      obtain ⟨n, r1, h1, h2⟩ := bind_ok h
      simp only [DecRes.ok.injEq] at h2
      obtain ⟨rfl, rfl⟩ := h2
      obtain ⟨u, rfl, hu, hl⟩ := ih bs n h1
      exact ⟨b :: u, rfl, by simp [hu], fun r' => by simp [readLE, hl, DecRes.bind]⟩

theorem readLE_torn (k n : Nat) (p q : Bytes) (h : p ++ q = leBytes k n) (hq : q ≠ []) : readLE k p = .eof := by
  apply readLE_short
  have := congrArg List.length h
  rw [leBytes_length, List.length_append] at this
  have := List.length_pos_iff.2 hq
  omega

/-- a tag byte and what follows it -/
theorem cons_torn {α : Type} {t : UInt8} {e p q : Bytes} {dec : Bytes → DecRes α} (hn : dec [] = .eof)
    (h : p ++ q = t :: e) (hq : q ≠ []) (hc : ∀ p', p' ++ q = e → dec (t :: p') = .eof) : dec p = .eof := by
  cases p with
  | nil => exact hn
  | cons b p =>
    rw [List.cons_append, List.cons.injEq] at h
    obtain ⟨rfl, h⟩ := h
    exact hc p h

theorem varint_small (w : Bool) (b : UInt8) (bs : Bytes) (h : b.toNat < 251) :
    (varint w).dec (b :: bs) = .ok b.toNat bs := by
  show (if b.toNat < 251 then _ else _) = _
  rw [if_pos h]
theorem varint_dec2 (w : Bool) (bs : Bytes) : (varint w).dec (251 :: bs) = readLE 2 bs := rfl
theorem varint_dec4 (w : Bool) (bs : Bytes) : (varint w).dec (252 :: bs) = readLE 4 bs := rfl
theorem varint_dec8 (bs : Bytes) : (varint true).dec (253 :: bs) = readLE 8 bs := rfl

/-- the four forms of an integer -/
theorem varint_enc (w : Bool) (n : Nat) (hn : n < intLimit w) :
    (n < 251 ∧ (varint w).enc n = [UInt8.ofNat n]) ∨
    (n < 2 ^ 16 ∧ (varint w).enc n = 251 :: leBytes 2 n) ∨
    (n < 2 ^ 32 ∧ (varint w).enc n = 252 :: leBytes 4 n) ∨
    (n < 2 ^ 64 ∧ w = true ∧ (varint w).enc n = 253 :: leBytes 8 n) := by
  have e : (varint w).enc n = if n < 251 then [UInt8.ofNat n]
    else if n < 2 ^ 16 then 251 :: leBytes 2 n
    else if n < 2 ^ 32 then 252 :: leBytes 4 n
    else 253 :: leBytes 8 n := rfl
  rw [e]
  by_cases h1 : n < 251
  · left; rw [if_pos h1]; exact ⟨h1, rfl⟩
  · rw [if_neg h1]
    by_cases h2 : n < 2 ^ 16
    · right; left; rw [if_pos h2]; exact ⟨h2, rfl⟩
    · rw [if_neg h2]
      by_cases h3 : n < 2 ^ 32
      · right; right; left; rw [if_pos h3]; exact ⟨h3, rfl⟩
      · rw [if_neg h3]
        right; right; right
        cases w with
        | false => simp only [intLimit, Bool.false_eq_true, if_false] at hn; omega
        | true => simp only [intLimit, if_true] at hn; exact ⟨hn, rfl, rfl⟩

theorem varint_lawful (w : Bool) : (varint w).Lawful (fun n => n < intLimit w) where
  round n r hn := by
    rcases varint_enc w n hn with ⟨h, e⟩ | ⟨h, e⟩ | ⟨h, e⟩ | ⟨h, rfl, e⟩
    · have hb : (UInt8.ofNat n).toNat = n := by rw [UInt8.toNat_ofNat']; omega
      rw [e, List.cons_append, varint_small w _ _ (by omega), hb]; rfl
    · rw [e, List.cons_append, varint_dec2]; exact readLE_round 2 n r (by omega)
    · rw [e, List.cons_append, varint_dec4]; exact readLE_round 4 n r (by omega)
    · rw [e, List.cons_append, varint_dec8]; exact readLE_round 8 n r (by omega)
  torn n p q hn h hq := by
    rcases varint_enc w n hn with ⟨-, e⟩ | ⟨-, e⟩ | ⟨-, e⟩ | ⟨-, rfl, e⟩
    · rw [e] at h
      exact cons_torn rfl h hq (fun p' h' => by
        rw [List.append_eq_nil_iff] at h'; exact absurd h'.2 hq)
    · rw [e] at h
      exact cons_torn rfl h hq (fun p' h' => by rw [varint_dec2]; exact readLE_torn 2 n p' q h' hq)
    · rw [e] at h
      exact cons_torn rfl h hq (fun p' h' => by rw [varint_dec4]; exact readLE_torn 4 n p' q h' hq)
    · rw [e] at h
      exact cons_torn rfl h hq (fun p' h' => by rw [varint_dec8]; exact readLE_torn 8 n p' q h' hq)
  loc bs a r h := by
    unfold varint at *
    simp only at *
    cases bs with
    | nil => cases h
    | cons b bs =>
      simp only at h
      split at h
      · next h1 =>
        simp only [DecRes.ok.injEq] at h
        obtain ⟨rfl, rfl⟩ := h
        exact ⟨[b], rfl, fun r' => by simp only [List.cons_append]; rw [if_pos h1]; rfl⟩
      · next h1 =>
        have go : ∀ k, readLE k bs = .ok a r → (∀ x, (if b.toNat < 251 then DecRes.ok b.toNat x
            else if b.toNat = 251 then readLE 2 x
            else if b.toNat = 252 then readLE 4 x
            else if (b.toNat = 253 && w) = true then readLE 8 x else .bad) = readLE k x) →
            ∃ u, b :: bs = u ++ r ∧ ∀ r', (match u ++ r' with
              | [] => DecRes.eof
              | b :: bs => if b.toNat < 251 then .ok b.toNat bs
                else if b.toNat = 251 then readLE 2 bs
                else if b.toNat = 252 then readLE 4 bs
                else if (b.toNat = 253 && w) = true then readLE 8 bs else .bad) = .ok a r' := by
          intro k hk hx
          obtain ⟨u, rfl, -, hl⟩ := readLE_loc k bs a r hk
          exact ⟨b :: u, rfl, fun r' => (hx (u ++ r')).trans (hl r')⟩
        split at h
        · next h2 => exact go 2 h (fun x => by rw [if_neg h1, if_pos h2])
        · next h2 =>
          split at h
          · next h3 => exact go 4 h (fun x => by rw [if_neg h1, if_neg h2, if_pos h3])
          · next h3 =>
            split at h
            · next h4 => exact go 8 h (fun x => by rw [if_neg h1, if_neg h2, if_neg h3, if_pos h4])
            · cases h

theorem pair_lawful {α β : Type} {a : Codec α} {b : Codec β} {da : α → Prop} {db : β → Prop}
    (ha : a.Lawful da) (hb : b.Lawful db) : (pair a b).Lawful (fun x => da x.1 ∧ db x.2) where
  round x r hx := by
    show ((a.dec (a.enc x.1 ++ b.enc x.2 ++ r)).bind _) = _
    rw [List.append_assoc, ha.round _ _ hx.1]
    show ((b.dec (b.enc x.2 ++ r)).bind _) = _
    rw [hb.round _ _ hx.2]
    rfl
  torn x p q hx h hq := by
    show ((a.dec p).bind _) = _
    rcases append_split (show p ++ q = a.enc x.1 ++ b.enc x.2 from h) hq with ⟨q', h1, h2⟩ | ⟨p', rfl, h2⟩
    · rw [ha.torn _ _ _ hx.1 h1 h2]; rfl
    · rw [ha.round _ _ hx.1]
      show ((b.dec p').bind _) = _
      rw [hb.torn _ _ _ hx.2 h2 hq]; rfl
  loc bs x r h := by
    obtain ⟨y, r1, h1, h2⟩ := bind_ok h
    obtain ⟨z, r2, h3, h4⟩ := bind_ok h2
    simp only [DecRes.ok.injEq] at h4
    obtain ⟨rfl, rfl⟩ := h4
    obtain ⟨u, rfl, hu⟩ := ha.loc _ _ _ h1
    obtain ⟨v, rfl, hv⟩ := hb.loc _ _ _ h3
    refine ⟨u ++ v, by rw [List.append_assoc], fun r' => ?_⟩
    show ((a.dec (u ++ v ++ r')).bind _) = _
    rw [List.append_assoc, hu]
    show ((b.dec (v ++ r')).bind _) = _
    rw [hv]; rfl

theorem conv_lawful {α β : Type} {f : β → α} {g : α → Option β} {c : Codec α} {d : α → Prop} {d' : β → Prop}
    (hc : c.Lawful d) (hd : ∀ b, d' b → d (f b)) (hfg : ∀ b, d' b → g (f b) = some b) : (conv f g c).Lawful d' where
  round x r hx := by
    show ((c.dec (c.enc (f x) ++ r)).bind _) = _
    rw [hc.round _ _ (hd x hx)]
    simp only [DecRes.bind, hfg x hx]
  torn x p q hx h hq := by
    show ((c.dec p).bind _) = _
    rw [hc.torn _ _ _ (hd x hx) h hq]; rfl
  loc bs x r h := by
    obtain ⟨y, r1, h1, h2⟩ := bind_ok h
    obtain ⟨u, rfl, hu⟩ := hc.loc _ _ _ h1
    cases hg : g y with
    | none => rw [hg] at h2; cases h2
    | some z =>
      rw [hg] at h2
      simp only [DecRes.ok.injEq] at h2
      obtain ⟨rfl, rfl⟩ := h2
      refine ⟨u, rfl, fun r' => ?_⟩
      show ((c.dec (u ++ r')).bind _) = _
      rw [hu]
      simp only [DecRes.bind, hg]

theorem readN_round {α : Type} {c : Codec α} {d : α → Prop} (hc : c.Lawful d) (l : List α) (r : Bytes)
    (hl : ∀ x ∈ l, d x) : readN c l.length ((l.map c.enc).flatten ++ r) = .ok l r := by
  induction l with
  | nil => rfl
  | cons x l ih =>
    simp only [List.length_cons, readN, List.map_cons, List.flatten_cons, List.append_assoc]
    rw [hc.round _ _ (hl x (by simp))]
    simp only [DecRes.bind, ih (fun y hy => hl y (by simp [hy]))]

theorem readN_torn {α : Type} {c : Codec α} {d : α → Prop} (hc : c.Lawful d) (l : List α) (p q : Bytes)
    (hl : ∀ x ∈ l, d x) (h : p ++ q = (l.map c.enc).flatten) (hq : q ≠ []) : readN c l.length p = .eof := by
  induction l generalizing p with
  | nil => simp at h; exact absurd h.2 hq
  | cons x l ih =>
    simp only [List.length_cons, readN]
    rw [List.map_cons, List.flatten_cons] at h
    rcases append_split h hq with ⟨q', h1, h2⟩ | ⟨p', rfl, h2⟩
    · rw [hc.torn _ _ _ (hl x (by simp)) h1 h2]; rfl
    · rw [hc.round _ _ (hl x (by simp))]
      simp only [DecRes.bind, ih p' (fun y hy => hl y (by simp [hy])) h2]

theorem readN_loc {α : Type} {c : Codec α} {d : α → Prop} (hc : c.Lawful d) (n : Nat) (bs : Bytes) (l : List α) (r : Bytes)
    (h : readN c n bs = .ok l r) : ∃ u, bs = u ++ r ∧ ∀ r', readN c n (u ++ r') = .ok l r' := by
  induction n generalizing bs l with
  | zero => simp only [readN, DecRes.ok.injEq] at h; obtain ⟨rfl, rfl⟩ := h; exact ⟨[], rfl, fun _ => rfl⟩
  | succ n ih =>
    simp only [readN] at h
    obtain ⟨y, r1, h1, h2⟩ := bind_ok h
    obtain ⟨z, r2, h3, h4⟩ := bind_ok h2
    simp only [DecRes.ok.injEq] at h4
    obtain ⟨rfl, rfl⟩ := h4
    obtain ⟨u, rfl, hu⟩ := hc.loc _ _ _ h1
    obtain ⟨v, rfl, hv⟩ := ih _ _ h3
    refine ⟨u ++ v, by rw [List.append_assoc], fun r' => ?_⟩
    simp only [readN, List.append_assoc]
    rw [hu]
    simp only [DecRes.bind, hv]

theorem list_lawful {α : Type} {c : Codec α} {d : α → Prop} (hc : c.Lawful d) :
    (list c).Lawful (fun l => l.length < 2 ^ 64 ∧ ∀ x ∈ l, d x) where
  round l r hl := by
    show (((varint true).dec ((varint true).enc l.length ++ (l.map c.enc).flatten ++ r)).bind _) = _
    rw [List.append_assoc, (varint_lawful true).round _ _ (by simpa [intLimit] using hl.1)]
    exact readN_round hc l r hl.2
  torn l p q hl h hq := by
    show (((varint true).dec p).bind _) = _
    rcases append_split (show p ++ q = (varint true).enc l.length ++ (l.map c.enc).flatten from h) hq with
      ⟨q', h1, h2⟩ | ⟨p', rfl, h2⟩
    · rw [(varint_lawful true).torn _ _ _ (by simpa [intLimit] using hl.1) h1 h2]; rfl
    · rw [(varint_lawful true).round _ _ (by simpa [intLimit] using hl.1)]
      exact readN_torn hc l p' q hl.2 h2 hq
  loc bs l r h := by
    obtain ⟨n, r1, h1, h2⟩ := bind_ok h
    obtain ⟨u, rfl, hu⟩ := (varint_lawful true).loc _ _ _ h1
    obtain ⟨v, rfl, hv⟩ := readN_loc hc _ _ _ _ h2
    refine ⟨u ++ v, by rw [List.append_assoc], fun r' => ?_⟩
    show (((varint true).dec (u ++ v ++ r')).bind _) = _
    rw [List.append_assoc, hu]
    exact hv r'

theorem option_lawful {α : Type} {c : Codec α} {d : α → Prop} (hc : c.Lawful d) :
    (option c).Lawful (fun o => ∀ a ∈ o, d a) where
  round o r ho := by
    cases o with
    | none => rfl
    | some a =>
      show ((c.dec (c.enc a ++ r)).bind _) = _
      rw [hc.round _ _ (ho a rfl)]; rfl
  torn o p q ho h hq := by
    cases o with
    | none =>
      exact cons_torn rfl (show p ++ q = 0 :: [] from h) hq (fun p' h' => by
        rw [List.append_eq_nil_iff] at h'; exact absurd h'.2 hq)
    | some a =>
      refine cons_torn rfl (show p ++ q = 1 :: c.enc a from h) hq (fun p' h' => ?_)
      show ((c.dec p').bind _) = _
      rw [hc.torn _ _ _ (ho a rfl) h' hq]; rfl
  loc bs o r h := by
    cases bs with
    | nil => cases h
    | cons b bs =>
      have h' : (if b = 0 then DecRes.ok none bs
        else if b = 1 then (c.dec bs).bind (fun a rest => .ok (some a) rest) else .bad) = .ok o r := h
      by_cases h0 : b = 0
      · rw [if_pos h0] at h'
        simp only [DecRes.ok.injEq] at h'
        obtain ⟨rfl, rfl⟩ := h'
        subst h0
        exact ⟨[0], rfl, fun _ => rfl⟩
      · rw [if_neg h0] at h'
        by_cases h1 : b = 1
        · rw [if_pos h1] at h'
          obtain ⟨a, r1, h2, h3⟩ := bind_ok h'
          simp only [DecRes.ok.injEq] at h3
          obtain ⟨rfl, rfl⟩ := h3
          obtain ⟨u, rfl, hu⟩ := hc.loc _ _ _ h2
          subst h1
          refine ⟨1 :: u, rfl, fun r' => ?_⟩
          show ((c.dec (u ++ r')).bind _) = _
          rw [hu]; rfl
        · rw [if_neg h1] at h'; cases h'

theorem ofList_entries {κ ν : Type} [LinearOrder κ] (m : OMap κ ν) : OMap.ofList m.entries = m := by
  apply OMap.ext_get
  intro k
  cases hk : m.get k with
  | none =>
    apply OMap.get_ofList_none
    intro v hv
    rw [OMap.mem_entries, hk] at hv; cases hv
  | some v =>
    refine OMap.get_ofList_of_fun (fun v' hv' => ?_) (OMap.mem_entries.2 hk)
    rw [OMap.mem_entries, hk] at hv'; exact (Option.some.inj hv').symm

theorem omap_lawful {κ ν : Type} [LinearOrder κ] {k : Codec κ} {v : Codec ν} {dk : κ → Prop} {dv : ν → Prop}
    (hk : k.Lawful dk) (hv : v.Lawful dv) :
    (omap k v).Lawful (fun m => m.size < 2 ^ 64 ∧ ∀ a b, m.get a = some b → dk a ∧ dv b) :=
  conv_lawful (list_lawful (pair_lawful hk hv))
    (fun m hm => ⟨hm.1, fun x hx => hm.2 x.1 x.2 (OMap.mem_entries.1 hx)⟩)
    (fun m _ => by rw [ofList_entries])

theorem oset_lawful {κ : Type} [LinearOrder κ] {k : Codec κ} {dk : κ → Prop} (hk : k.Lawful dk) :
    (oset k).Lawful (fun s => OMap.size s < 2 ^ 64 ∧ ∀ a, OSet.mem s a = true → dk a) :=
  conv_lawful (list_lawful hk)
    (fun s hs => ⟨by simpa [OSet.toList, OMap.keys, OMap.size] using hs.1, fun x hx => hs.2 x (OSet.mem_toList.1 hx)⟩)
    (fun s _ => by
      congr 1
      apply OSet.ext_mem
      intro x
      rw [OSet.mem_ofList]
      cases h : OSet.mem s x with
      | true => simpa using OSet.mem_toList.2 h
      | false =>
        simp only [decide_eq_false_iff_not]
        intro hc
        rw [OSet.mem_toList, h] at hc; cases hc)

theorem hash_lawful : hash.Lawful (fun n => n < 2 ^ 256) where
  round n r hn := readLE_round 32 n r (by have e : (256 : Nat) ^ 32 = 2 ^ 256 := by decide
                                          rw [e]; exact hn)
  torn n p q hn h hq := cons_torn rfl (show p ++ q = 32 :: leBytes 32 n from h) hq
    (fun p' h' => readLE_torn 32 n p' q h' hq)
  loc bs a r h := by
    cases bs with
    | nil => cases h
    | cons b bs =>
      have h' : (if b = 32 then readLE 32 bs else .bad) = .ok a r := h
      by_cases hb : b = 32
      · subst hb
        rw [if_pos rfl] at h'
        obtain ⟨u, rfl, -, hl⟩ := readLE_loc 32 bs a r h'
        exact ⟨32 :: u, rfl, fun r' => hl r'⟩
      · rw [if_neg hb] at h'; cases h'

theorem txid_lawful : txid.Lawful (fun _ => True) :=
  conv_lawful hash_lawful (fun t _ => t.2) (fun t _ => by rw [dif_pos t.2])

theorem outpoint_lawful : outpoint.Lawful (fun _ => True) :=
  conv_lawful (pair_lawful txid_lawful (varint_lawful false))
    (fun o _ => ⟨trivial, by simpa [intLimit] using o.vout.2⟩) (fun o _ => by simp only [o.vout.2, dif_pos])

theorem txout_lawful {s : Codec Script} {d : Script → Prop} (hs : s.Lawful d) :
    (txout s).Lawful (fun o => o.value < 2 ^ 64 ∧ d o.spk) :=
  conv_lawful (pair_lawful (varint_lawful true) hs) (fun o h => ⟨by simpa [intLimit] using h.1, h.2⟩) (fun o _ => rfl)

theorem txHeight_dec (bs : Bytes) : txHeight.dec bs = ((varint false).dec bs).bind (fun v rest =>
    if v = 0 then ((varint false).dec rest).bind (fun h rest => .ok (.confirmed h) rest)
    else if v = 1 then .ok .unconfirmed rest
    else .bad) := rfl
theorem confirmationTime_dec (bs : Bytes) : confirmationTime.dec bs = ((varint false).dec bs).bind (fun v rest =>
    if v = 0 then ((pair (varint false) (varint true)).dec rest).bind (fun x rest =>
      if h : x.2 < 2 ^ 64 then .ok (.confirmed x.1 ⟨x.2, h⟩) rest else .bad)
    else if v = 1 then .ok .unconfirmed rest
    else .bad) := rfl
theorem txHeight_enc (n : Nat) : txHeight.enc (.confirmed n) = 0 :: (varint false).enc n := rfl
theorem confirmationTime_enc (n : Nat) (t : Fin (2 ^ 64)) : confirmationTime.enc (.confirmed n t) =
    0 :: ((varint false).enc n ++ (varint true).enc t.val) := rfl

theorem txHeight_lawful : txHeight.Lawful (fun h => ∀ n, h = .confirmed n → n < 2 ^ 32) where
  round x r hx := by
    cases x with
    | unconfirmed => rfl
    | confirmed n =>
      rw [txHeight_dec, txHeight_enc, List.cons_append, varint_small false 0 _ (by decide)]
      simp only [DecRes.bind, UInt8.toNat_zero, if_true]
      rw [(varint_lawful false).round _ _ (by simpa [intLimit] using hx n rfl)]
  torn x p q hx h hq := by
    cases x with
    | unconfirmed =>
      exact cons_torn rfl (show p ++ q = 1 :: [] from h) hq (fun p' h' => by
        rw [List.append_eq_nil_iff] at h'; exact absurd h'.2 hq)
    | confirmed n =>
      refine cons_torn rfl (show p ++ q = 0 :: (varint false).enc n from h) hq (fun p' h' => ?_)
      rw [txHeight_dec, varint_small false 0 _ (by decide)]
      simp only [DecRes.bind, UInt8.toNat_zero, if_true]
      rw [(varint_lawful false).torn _ _ _ (by simpa [intLimit] using hx n rfl) h' hq]
  loc bs x r h := by
    obtain ⟨v, r1, h1, h2⟩ := bind_ok h
    obtain ⟨u, rfl, hu⟩ := (varint_lawful false).loc _ _ _ h1
    by_cases h0 : v = 0
    · rw [if_pos h0] at h2
      obtain ⟨n, r2, h3, h4⟩ := bind_ok h2
      simp only [DecRes.ok.injEq] at h4
      obtain ⟨rfl, rfl⟩ := h4
      obtain ⟨w, rfl, hw⟩ := (varint_lawful false).loc _ _ _ h3
      refine ⟨u ++ w, by rw [List.append_assoc], fun r' => ?_⟩
      show (((varint false).dec (u ++ w ++ r')).bind _) = _
      rw [List.append_assoc, hu]
      simp only [DecRes.bind, h0, if_true, hw]
    · rw [if_neg h0] at h2
      by_cases h1' : v = 1
      · rw [if_pos h1'] at h2
        simp only [DecRes.ok.injEq] at h2
        obtain ⟨rfl, rfl⟩ := h2
        refine ⟨u, rfl, fun r' => ?_⟩
        show (((varint false).dec (u ++ r')).bind _) = _
        rw [hu]
        simp only [DecRes.bind]
        rw [if_neg h0, if_pos h1']
      · rw [if_neg h1'] at h2; cases h2

theorem confirmationTime_lawful : confirmationTime.Lawful (fun h => ∀ n t, h = .confirmed n t → n < 2 ^ 32) where
  round x r hx := by
    cases x with
    | unconfirmed => rfl
    | confirmed n t =>
      rw [confirmationTime_dec, confirmationTime_enc, List.cons_append, varint_small false 0 _ (by decide)]
      simp only [DecRes.bind, UInt8.toNat_zero, if_true]
      have := (pair_lawful (varint_lawful false) (varint_lawful true)).round (n, t.val) r
        ⟨by simpa [intLimit] using hx n t rfl, by simpa [intLimit] using t.2⟩
      have e : (pair (varint false) (varint true)).enc (n, t.val) = (varint false).enc n ++ (varint true).enc t.val := rfl
      rw [e] at this
      rw [this]
      simp only [t.2, dif_pos]
  torn x p q hx h hq := by
    cases x with
    | unconfirmed =>
      exact cons_torn rfl (show p ++ q = 1 :: [] from h) hq (fun p' h' => by
        rw [List.append_eq_nil_iff] at h'; exact absurd h'.2 hq)
    | confirmed n t =>
      refine cons_torn rfl (show p ++ q = 0 :: ((varint false).enc n ++ (varint true).enc t.val) from h) hq (fun p' h' => ?_)
      rw [confirmationTime_dec, varint_small false 0 _ (by decide)]
      simp only [DecRes.bind, UInt8.toNat_zero, if_true]
      rw [(pair_lawful (varint_lawful false) (varint_lawful true)).torn (n, t.val) p' q
        ⟨by simpa [intLimit] using hx n t rfl, by simpa [intLimit] using t.2⟩ h' hq]
  loc bs x r h := by
    obtain ⟨v, r1, h1, h2⟩ := bind_ok h
    obtain ⟨u, rfl, hu⟩ := (varint_lawful false).loc _ _ _ h1
    by_cases h0 : v = 0
    · rw [if_pos h0] at h2
      obtain ⟨n, r2, h3, h4⟩ := bind_ok h2
      obtain ⟨w, rfl, hw⟩ := (pair_lawful (varint_lawful false) (varint_lawful true)).loc _ _ _ h3
      by_cases hn : n.2 < 2 ^ 64
      · rw [dif_pos hn] at h4
        simp only [DecRes.ok.injEq] at h4
        obtain ⟨rfl, rfl⟩ := h4
        refine ⟨u ++ w, by rw [List.append_assoc], fun r' => ?_⟩
        show (((varint false).dec (u ++ w ++ r')).bind _) = _
        rw [List.append_assoc, hu]
        simp only [DecRes.bind, h0, if_true, hw, hn, dif_pos]
      · rw [dif_neg hn] at h4; cases h4
    · rw [if_neg h0] at h2
      by_cases h1' : v = 1
      · rw [if_pos h1'] at h2
        simp only [DecRes.ok.injEq] at h2
        obtain ⟨rfl, rfl⟩ := h2
        refine ⟨u, rfl, fun r' => ?_⟩
        show (((varint false).dec (u ++ r')).bind _) = _
        rw [hu]
        simp only [DecRes.bind]
        rw [if_neg h0, if_pos h1']
      · rw [if_neg h1'] at h2; cases h2

section changeset
variable {K P T : Type} [LinearOrder K] [LinearOrder P] [LinearOrder T]

/-- the changesets whose numbers have the width of their Rust types and whose leaves can be encoded -/
structure Fits (dk : K → Prop) (dp : P → Prop) (dt : T → Prop) (ds : Script → Prop) (c : KeychainChangeSet K P T) : Prop where
  sizes : c.derivationIndices.size < 2 ^ 64 ∧ c.chainGraph.chain.checkpoints.size < 2 ^ 64 ∧
    c.chainGraph.chain.txids.size < 2 ^ 64 ∧ OMap.size c.chainGraph.graph.tx < 2 ^ 64 ∧ c.chainGraph.graph.txout.size < 2 ^ 64
  indices : ∀ k i, c.derivationIndices.get k = some i → dk k ∧ i < 2 ^ 32
  checkpoints : ∀ h b, c.chainGraph.chain.checkpoints.get h = some b → h < 2 ^ 32 ∧ ∀ x ∈ b, x < 2 ^ 256
  txids : ∀ t p, c.chainGraph.chain.txids.get t = some p → ∀ x ∈ p, dp x
  txs : ∀ t, OSet.mem c.chainGraph.graph.tx t = true → dt t
  txouts : ∀ o x, c.chainGraph.graph.txout.get o = some x → x.value < 2 ^ 64 ∧ ds x.spk

theorem changeset_lawful {k : Codec K} {p : Codec P} {t : Codec T} {s : Codec Script}
    {dk : K → Prop} {dp : P → Prop} {dt : T → Prop} {ds : Script → Prop}
    (hk : k.Lawful dk) (hp : p.Lawful dp) (ht : t.Lawful dt) (hs : s.Lawful ds) :
    (changeset k p t s).Lawful (Fits dk dp dt ds) :=
  conv_lawful
    (pair_lawful (omap_lawful hk (varint_lawful false))
      (pair_lawful (pair_lawful (omap_lawful (varint_lawful false) (option_lawful hash_lawful))
          (omap_lawful txid_lawful (option_lawful hp)))
        (pair_lawful (oset_lawful ht) (omap_lawful outpoint_lawful (txout_lawful hs)))))
    (fun c h => by
      obtain ⟨h1, h2, h3, h4, h5⟩ := h.sizes
      refine ⟨⟨h1, fun a b hab => ?_⟩, ⟨⟨h2, fun a b hab => ?_⟩, ⟨h3, fun a b hab => ⟨trivial, h.txids a b hab⟩⟩⟩,
        ⟨h4, h.txs⟩, ⟨h5, fun a b hab => ⟨trivial, h.txouts a b hab⟩⟩⟩
      · have := h.indices a b hab
        exact ⟨this.1, by simpa [intLimit] using this.2⟩
      · have := h.checkpoints a b hab
        exact ⟨by simpa [intLimit] using this.1, this.2⟩)
    (fun c _ => rfl)

theorem varint_ne_nil (w : Bool) (n : Nat) : (varint w).enc n ≠ [] := by
  show (if n < 251 then _ else _) ≠ []
  split
  · simp
  · split
    · simp
    · split <;> simp

theorem varint_nil (w : Bool) : (varint w).dec [] = .eof := rfl

/-- an entry takes at least one byte, and nothing is not an entry -/
theorem changeset_nil (k : Codec K) (p : Codec P) (t : Codec T) (s : Codec Script) :
    (changeset k p t s).dec [] = .eof := rfl

end changeset
end Codec
end Verif
