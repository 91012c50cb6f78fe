import Verif.Model.FileStore
import Verif.Lemmas.Codec

/-!
# Lemmas about the file store
-/

namespace Verif
namespace KeychainStore
variable {K P T : Type} [LinearOrder K] [LinearOrder P] [LinearOrder T]

/-- what the reading loop finds in the bytes after the magic bytes: the entries, how it ends, and the bytes not consumed -/
inductive Parses (cd : Codec (KeychainChangeSet K P T)) :
    Bytes → List (KeychainChangeSet K P T) → Option IterError → Bytes → Prop where
  | done : Parses cd [] [] none []
  | eof {bs : Bytes} : bs ≠ [] → cd.dec bs = .eof → Parses cd bs [] (some .eof) bs
  | bad {bs : Bytes} : cd.dec bs = .bad → Parses cd bs [] (some .bad) bs
  | cons {bs r t : Bytes} {c : KeychainChangeSet K P T} {l : List (KeychainChangeSet K P T)} {e : Option IterError} :
      cd.dec bs = .ok c r → Parses cd r l e t → Parses cd bs (c :: l) e t

variable {cd : Codec (KeychainChangeSet K P T)} {dom : KeychainChangeSet K P T → Prop}

theorem dec_ok_len (hc : cd.Lawful dom) (hn : cd.dec [] = .eof) {bs : Bytes} {c : KeychainChangeSet K P T} {r : Bytes}
    (h : cd.dec bs = .ok c r) : ∃ u, u ≠ [] ∧ bs = u ++ r ∧ ∀ r', cd.dec (u ++ r') = .ok c r' := by
  obtain ⟨u, rfl, hu⟩ := hc.loc _ _ _ h
  refine ⟨u, ?_, rfl, hu⟩
  rintro rfl
  have := hu []
  rw [List.append_nil, hn] at this; cases this

theorem parses_total (hc : cd.Lawful dom) (hn : cd.dec [] = .eof) (bs : Bytes) : ∃ l e t, Parses cd bs l e t := by
  generalize h : bs.length = n
  induction n using Nat.strongRecOn generalizing bs with
  | _ n ih =>
    cases hd : cd.dec bs with
    | eof =>
      by_cases hb : bs = []
      · subst hb; exact ⟨_, _, _, .done⟩
      · exact ⟨_, _, _, .eof hb hd⟩
    | bad => exact ⟨_, _, _, .bad hd⟩
    | ok c r =>
      obtain ⟨u, hu, rfl, -⟩ := dec_ok_len hc hn hd
      have := List.length_pos_iff.2 hu
      rw [List.length_append] at h
      obtain ⟨l, e, t, hp⟩ := ih r.length (by omega) r rfl
      exact ⟨_, _, _, .cons hd hp⟩

theorem parses_append (hc : cd.Lawful dom) (hn : cd.dec [] = .eof) {bs : Bytes} {l e t} (h : Parses cd bs l e t) :
    ∃ u, bs = u ++ t ∧ ∀ r l' e' t', Parses cd r l' e' t' → Parses cd (u ++ r) (l ++ l') e' t' := by
  induction h with
  | done => exact ⟨[], rfl, fun _ _ _ _ h => h⟩
  | eof _ _ => exact ⟨[], rfl, fun _ _ _ _ h => h⟩
  | bad _ => exact ⟨[], rfl, fun _ _ _ _ h => h⟩
  | cons hd _ ih =>
    obtain ⟨u, -, rfl, hu⟩ := dec_ok_len hc hn hd
    obtain ⟨v, rfl, hv⟩ := ih
    refine ⟨u ++ v, by rw [List.append_assoc], fun r l' e' t' hp => ?_⟩
    rw [List.append_assoc]
    exact .cons (hu _) (hv _ _ _ _ hp)

theorem parses_rest (hc : cd.Lawful dom) (hn : cd.dec [] = .eof) {bs : Bytes} {l e t} (h : Parses cd bs l e t) :
    (e = none ↔ t = []) ∧ Parses cd t [] e t := by
  induction h with
  | done => exact ⟨by simp, .done⟩
  | eof hb hd => exact ⟨by simp [hb], .eof hb hd⟩
  | @bad bs hd =>
    refine ⟨?_, .bad hd⟩
    constructor
    · intro h; cases h
    · rintro rfl; rw [hn] at hd; cases hd
  | cons _ _ ih => exact ih

theorem parses_enc (hc : cd.Lawful dom) {c : KeychainChangeSet K P T} (hd : dom c) {r l e t} (h : Parses cd r l e t) :
    Parses cd (cd.enc c ++ r) (c :: l) e t := .cons (hc.round _ _ hd) h

theorem parses_encs (hc : cd.Lawful dom) (l : List (KeychainChangeSet K P T)) (hd : ∀ c ∈ l, dom c) {r l' e t}
    (h : Parses cd r l' e t) : Parses cd ((l.map cd.enc).flatten ++ r) (l ++ l') e t := by
  induction l with
  | nil => exact h
  | cons c l ih =>
    rw [List.map_cons, List.flatten_cons, List.append_assoc]
    exact parses_enc hc (hd c (by simp)) (ih (fun x hx => hd x (by simp [hx])))

theorem enc_ne_nil (hc : cd.Lawful dom) (hn : cd.dec [] = .eof) {c : KeychainChangeSet K P T} (hd : dom c) : cd.enc c ≠ [] := by
  intro h
  have := hc.round c [] hd
  rw [h, List.append_nil, hn] at this; cases this

theorem parses_torn (hc : cd.Lawful dom) {c : KeychainChangeSet K P T} (hd : dom c) {k : Nat} (h0 : 0 < k)
    (hk : k < (cd.enc c).length) : Parses cd ((cd.enc c).take k) [] (some .eof) ((cd.enc c).take k) := by
  refine .eof ?_ (hc.torn c _ ((cd.enc c).drop k) hd (List.take_append_drop _ _) ?_)
  · intro h; have := congrArg List.length h; rw [List.length_take, List.length_nil] at this; omega
  · intro h; have := congrArg List.length h; rw [List.length_drop, List.length_nil] at this; omega

theorem readLoop_of_parses (hc : cd.Lawful dom) (hn : cd.dec [] = .eof) {bs : Bytes} {l e t} (h : Parses cd bs l e t)
    (f : File) (hf : f.bytes.drop f.pos = bs) (hp : f.pos ≤ f.bytes.length) (n : Nat) (hn' : bs.length < n) :
    readLoop cd n f = some (l, e, ⟨f.bytes, f.bytes.length - t.length⟩) := by
  induction h generalizing f n with
  | done =>
    cases n with
    | zero => omega
    | succ n =>
      have hl : f.pos = f.bytes.length := by
        have := congrArg List.length hf; rw [List.length_drop] at this; simp at this; omega
      unfold readLoop next
      simp only [hf, hn]
      rw [if_pos hl]
      simp [File.seekTo]
  | @eof bs hb hd =>
    cases n with
    | zero => omega
    | succ n =>
      have hl : f.bytes.length - f.pos = bs.length := by rw [← hf, List.length_drop]
      have := List.length_pos_iff.2 hb
      unfold readLoop next
      simp only [hf, hd]
      rw [if_neg (by omega)]
      simp only [File.seekTo]
      rw [show f.bytes.length - bs.length = f.pos by omega]
  | @bad bs hd =>
    cases n with
    | zero => omega
    | succ n =>
      have hl : f.bytes.length - f.pos = bs.length := by rw [← hf, List.length_drop]
      unfold readLoop next
      simp only [hf, hd, File.seekTo]
      rw [show f.bytes.length - bs.length = f.pos by omega]
  | @cons bs r t c l e hd _ ih =>
    cases n with
    | zero => omega
    | succ n =>
      obtain ⟨u, hu, rfl, -⟩ := dec_ok_len hc hn hd
      have h1 := List.length_pos_iff.2 hu
      have hl : f.bytes.length - f.pos = (u ++ r).length := by rw [← hf, List.length_drop]
      rw [List.length_append] at hl hn'
      unfold readLoop next
      simp only [hf, hd, List.length_append, Nat.add_sub_cancel]
      rw [ih ⟨f.bytes, f.pos + u.length⟩ (by
          simp only
          rw [← List.drop_drop, hf, List.drop_append_of_le_length (le_refl _)]; simp) (by simp only; omega) n (by omega)]
      rfl

theorem readAll_of_parses (hc : cd.Lawful dom) (hn : cd.dec [] = .eof) {f : KeychainStore} (hf : magicLen ≤ f.bytes.length)
    {l e t} (h : Parses cd (f.bytes.drop magicLen) l e t) :
    readAll cd f = some (l, e, ⟨f.bytes, f.bytes.length - t.length⟩) :=
  readLoop_of_parses hc hn h (f.seekTo magicLen) rfl hf _ (by rw [List.length_drop]; show _ < f.bytes.length + 1; omega)

theorem new_ok (b : Bytes) : (new ⟨magicBytes ++ b, 0⟩) = (⟨magicBytes ++ b, magicLen⟩, .ok ⟨magicBytes ++ b, magicLen⟩) := by
  have h1 : (magicBytes ++ b).length = b.length + 12 := by rw [List.length_append, Nat.add_comm]; rfl
  have h2 : (magicBytes ++ b).take magicLen = magicBytes := rfl
  unfold new
  rw [if_neg (by show ¬ (magicBytes ++ b).length < 12; omega)]
  simp only [h2, ne_eq, not_true, if_false]

theorem magic_split {bytes : Bytes} (h : bytes.take magicLen = magicBytes) : bytes = magicBytes ++ bytes.drop magicLen := by
  rw [← h, List.take_append_drop]

theorem take_len {bytes : Bytes} (h : bytes.take magicLen = magicBytes) : magicLen ≤ bytes.length := by
  have := congrArg List.length h
  rw [List.length_take] at this
  have h2 : magicBytes.length = 12 := rfl
  have h3 : magicLen = 12 := rfl
  omega

theorem drop_magic (b : Bytes) : (magicBytes ++ b).drop magicLen = b := rfl
theorem magic_len (b : Bytes) : (magicBytes ++ b).length = magicLen + b.length := by
  rw [List.length_append]; rfl

theorem contents_of_parses (hc : cd.Lawful dom) (hn : cd.dec [] = .eof) {bs : Bytes} {l e t} (h : Parses cd bs l e t) :
    contents cd (magicBytes ++ bs) = some (l, e) := by
  unfold contents newFromPath
  simp only [new_ok]
  rw [readAll_of_parses hc hn (f := ⟨magicBytes ++ bs, magicLen⟩) (by show magicLen ≤ (magicBytes ++ bs).length; rw [magic_len]; omega) h]
  rfl

theorem contents_some (hc : cd.Lawful dom) (hn : cd.dec [] = .eof) {bytes : Bytes} {l e} (h : contents cd bytes = some (l, e)) :
    ∃ bs t, bytes = magicBytes ++ bs ∧ Parses cd bs l e t := by
  have hm : bytes.take magicLen = magicBytes := by
    by_contra hm
    unfold contents newFromPath new at h
    simp only at h
    split at h
    · cases h
    · next heq =>
      split at heq
      · cases heq
      · cases heq
  refine ⟨bytes.drop magicLen, ?_⟩
  obtain ⟨l', e', t, hp⟩ := parses_total hc hn (bytes.drop magicLen)
  have := contents_of_parses hc hn hp
  rw [← magic_split hm, h] at this
  cases this
  exact ⟨t, magic_split hm, hp⟩

/-- writing at the end of what was read, then cutting -/
theorem write_at (a b e : Bytes) : (⟨a ++ b, a.length⟩ : File).write e = ⟨a ++ e ++ b.drop e.length, a.length + e.length⟩ := by
  unfold File.write
  simp only [List.take_left', List.length_append, Nat.sub_eq_zero_of_le (Nat.le_add_right _ _), List.replicate_zero,
    List.append_nil]
  congr 2
  rw [← List.drop_drop, List.drop_left]

theorem setLen_at (a e b : Bytes) (n p : Nat) (h : n = a.length + e.length) :
    (⟨a ++ e ++ b, p⟩ : File).setLen n = ⟨a ++ e, p⟩ := by
  unfold File.setLen
  have h1 : (a ++ e).length = n := by rw [h, List.length_append]
  simp only [List.length_append, Nat.sub_eq_zero_of_le (show n ≤ a.length + e.length + b.length by omega), List.replicate_zero,
    List.append_nil]
  congr 1
  rw [List.take_append_of_le_length (by omega), List.take_of_length_le (by omega)]

theorem append_at (cd : Codec (KeychainChangeSet K P T)) (a b : Bytes) (c : KeychainChangeSet K P T) (hc : c.isEmpty = false) :
    append cd ⟨a ++ b, a.length⟩ c .none = (⟨a ++ cd.enc c, a.length + (cd.enc c).length⟩, .ok ()) := by
  unfold append
  simp only [hc, Bool.false_eq_true, if_false]
  rw [write_at, setLen_at _ _ _ _ _ rfl]

theorem append_empty (cd : Codec (KeychainChangeSet K P T)) (f : KeychainStore) (c : KeychainChangeSet K P T) (hc : c.isEmpty = true)
    (x : WriteFault) : append cd f c x = (f, .ok ()) := by
  unfold append
  rw [if_pos hc]

end KeychainStore
end Verif
