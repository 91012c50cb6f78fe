import Verif.Spec.SharedFile
import Verif.Props.FileStore

/-!
# Lemmas about several stores on one file
-/

set_option linter.unusedSectionVars false

namespace Verif.Props
open Verif Verif.Spec Verif.KeychainStore Verif.SharedFile
variable {K P T : Type} [LinearOrder K] [LinearOrder P] [LinearOrder T]
  {cd : Codec (KeychainChangeSet K P T)} {dom : KeychainChangeSet K P T → Prop}

theorem snoc_split {α : Type} {l a b : List α} {x y : α} (h : l ++ [y] = a ++ x :: b) :
    (b = [] ∧ a = l ∧ x = y) ∨ ∃ b', b = b' ++ [y] ∧ l = a ++ x :: b' := by
  rcases List.eq_nil_or_concat b with rfl | ⟨b', z, rfl⟩
  · left
    have := List.append_inj' h rfl
    simp only [List.cons.injEq, and_true] at this
    exact ⟨rfl, this.1.symm, this.2.symm⟩
  · right
    rw [List.concat_eq_append, ← List.cons_append, ← List.append_assoc] at h
    obtain ⟨h1, h2⟩ := List.append_inj' h rfl
    simp only [List.cons.injEq, and_true] at h2
    subst h2
    exact ⟨b', List.concat_eq_append, h1⟩

theorem disciplined_init {ops : List (SharedOp K P T)} {op} (h : Disciplined (ops ++ [op])) : Disciplined ops :=
  ⟨fun a x b e => h.1 a x (b ++ [op]) (by rw [e]; simp), fun a x c b e => h.2 a x c (b ++ [op]) (by rw [e]; simp)⟩

theorem disciplined_prefix {ops r : List (SharedOp K P T)} (h : Disciplined (ops ++ r)) : Disciplined ops :=
  ⟨fun a x b e => h.1 a x (b ++ r) (by rw [e]; simp), fun a x c b e => h.2 a x c (b ++ r) (by rw [e]; simp)⟩

theorem run_snoc (s : SharedFile) (ops : List (SharedOp K P T)) (op) : s.run cd (ops ++ [op]) = ((s.run cd ops).step cd op).1 := by
  unfold SharedFile.run; rw [List.foldl_append]; rfl

theorem sharedAppends_snoc (ops : List (SharedOp K P T)) (op) :
    sharedAppends (ops ++ [op]) = sharedAppends ops ++ sharedAppends [op] := by
  unfold sharedAppends; rw [List.filterMap_append]

theorem parses_none_rest (hg : GoodCodec cd dom) {bs : Bytes} {l t} (h : Parses cd bs l none t) : t = [] :=
  (parses_rest hg.lawful hg.nil h).1.1 rfl

/-- the file is a sound database with these entries, and these stores are at its end -/
structure SharedInv (cd : Codec (KeychainChangeSet K P T)) (ops : List (SharedOp K P T)) (l : List (KeychainChangeSet K P T)) (s : SharedFile) :
    Prop where
  sound : ∃ u, s.bytes = magicBytes ++ u ∧ Parses cd u l none []
  current : ∀ h, UpToDate ops h → s.pos h = some s.bytes.length
  isOpen : ∀ h x, SharedOp.open h x ∈ ops → (s.pos h).isSome

theorem open_step (s : SharedFile) {u : Bytes} (hb : s.bytes = magicBytes ++ u) (h : Nat) (x : Bool) :
    s.step cd (.open h x : SharedOp K P T) = (s.put h ⟨s.bytes, magicLen⟩, .opened (.ok ())) := by
  have hn : ∀ p, new ⟨magicBytes ++ u, p⟩ = (⟨magicBytes ++ u, magicLen⟩, .ok ⟨magicBytes ++ u, magicLen⟩) := by
    intro p; exact new_ok u
  have hw : (⟨magicBytes ++ u, 0⟩ : File).write magicBytes = ⟨magicBytes ++ u, 12⟩ := by
    have := write_at [] (magicBytes ++ u) magicBytes
    simp only [List.nil_append, List.length_nil] at this
    rw [this]
    congr 1
  unfold SharedFile.step
  simp only
  cases x
  · simp only [Bool.false_eq_true, if_false, hb, hn]
  · simp only [if_true, hb, hw, hn]

theorem upToDate_snoc {ops : List (SharedOp K P T)} {op} {h : Nat} (hu : UpToDate (ops ++ [op]) h) (hne : ∀ h', op = .read h' → h' ≠ h) :
    UpToDate ops h ∧ (∀ h' c, op = .append h' c → h' = h) ∧ ∀ x, op ≠ .open h x := by
  obtain ⟨a, b, he, h1, h2⟩ := hu
  rcases snoc_split he with ⟨-, -, h3⟩ | ⟨b', rfl, h4⟩
  · exact absurd rfl (hne h h3.symm)
  · refine ⟨⟨a, b', h4, fun h' c hc => h1 h' c (by simp [hc]), fun x hx => h2 x (by simp [hx])⟩, ?_, ?_⟩
    · rintro h' c rfl; exact h1 h' c (by simp)
    · rintro x rfl; exact h2 x (by simp)

theorem put_pos_self (s : SharedFile) (h : Nat) (f : File) : (s.put h f).pos h = some f.pos := by simp [SharedFile.put]
theorem put_pos_other (s : SharedFile) {h i : Nat} (hi : i ≠ h) (f : File) : (s.put h f).pos i = s.pos i := by simp [SharedFile.put, hi]

theorem put_open {s : SharedFile} {h i : Nat} {f : File} (hi : i = h ∨ (s.pos i).isSome) : ((s.put h f).pos i).isSome := by
  by_cases e : i = h
  · subst e; rw [put_pos_self]; rfl
  · rw [put_pos_other _ e]; exact hi.resolve_left e

theorem shared_step (hg : GoodCodec cd dom) {ops : List (SharedOp K P T)} {op} {l} {s : SharedFile} (hi : SharedInv cd ops l s)
    (hd : Disciplined (ops ++ [op])) (hdom : ∀ c ∈ sharedAppends [op], dom c) :
    SharedInv cd (ops ++ [op]) (l ++ nonEmpty (sharedAppends [op])) (s.step cd op).1 ∧ s.bytes <+: (s.step cd op).1.bytes ∧
    (∀ i, i ≠ storeOf op → (s.step cd op).1.pos i = s.pos i) ∧
    (match op with
      | .open _ _ => (s.step cd op).2 = .opened (.ok ())
      | .read _ => (s.step cd op).2 = .entries l none
      | .append _ _ => (s.step cd op).2 = .appended (.ok ())) := by
  obtain ⟨⟨u, hb, hp⟩, hcur, hop⟩ := hi
  cases op with
  | «open» h x =>
    rw [open_step s hb h x]
    refine ⟨⟨⟨u, hb, by simpa [sharedAppends, nonEmpty] using hp⟩, ?_, ?_⟩, List.prefix_refl _, fun i hi => put_pos_other _ hi _, rfl⟩
    · intro i hi
      obtain ⟨h1, -, h3⟩ := upToDate_snoc hi (fun h' e => by cases e)
      by_cases e : i = h
      · subst e; exact absurd rfl (h3 x)
      · show (s.put h _).pos i = _
        rw [put_pos_other _ e]; exact hcur i h1
    · intro i y hy
      refine put_open ?_
      rw [List.mem_append, List.mem_singleton] at hy
      rcases hy with hy | hy
      · exact .inr (hop i y hy)
      · cases hy; exact .inl rfl
  | read h =>
    obtain ⟨x, hx⟩ := hd.1 ops h [] rfl
    obtain ⟨p, hpos⟩ := Option.isSome_iff_exists.1 (hop h x hx)
    obtain ⟨f', hr, bs, rfl, -⟩ := atEnd_read hg (f := ⟨s.bytes, p⟩) (bs := u) (l := l) hb hp
    have hbs : (⟨magicBytes ++ bs, (magicBytes ++ bs).length⟩ : File).bytes = s.bytes := by
      have h1 := readAll_of_parses hg.lawful hg.nil (f := ⟨s.bytes, p⟩) (by show _ ≤ s.bytes.length; rw [hb, magic_len]; omega)
        (show Parses cd ((⟨s.bytes, p⟩ : File).bytes.drop magicLen) l none [] by show Parses cd (s.bytes.drop magicLen) _ _ _; rw [hb]; exact hp)
      rw [hr] at h1
      simp only [Option.some.injEq, Prod.mk.injEq, true_and] at h1
      rw [h1]
    have hst : s.step cd (.read h : SharedOp K P T) = (s.put h ⟨s.bytes, s.bytes.length⟩, .entries l none) := by
      unfold SharedFile.step
      simp only [hpos, hr]
      simp only at hbs
      rw [hbs]
    rw [hst]
    refine ⟨⟨⟨u, hb, by simpa [sharedAppends, nonEmpty] using hp⟩, ?_, ?_⟩, List.prefix_refl _, fun i hi => put_pos_other _ hi _, rfl⟩
    · intro i hi
      by_cases e : i = h
      · subst e; exact put_pos_self _ _ _
      · show (s.put h _).pos i = _
        rw [put_pos_other _ e]
        exact hcur i (upToDate_snoc hi (fun h' e' => by cases e'; exact fun e'' => e e''.symm)).1
    · intro i y hy
      refine put_open (.inr ?_)
      rw [List.mem_append, List.mem_singleton] at hy
      rcases hy with hy | hy
      · exact hop i y hy
      · cases hy
  | append h c =>
    have hup := hd.2 ops h c [] rfl
    have hpos := hcur h hup
    have ha : AtEnd cd ⟨s.bytes, s.bytes.length⟩ l := ⟨u, by rw [hb], hp⟩
    obtain ⟨h1, h2⟩ := atEnd_append hg ha (hdom c (by simp [sharedAppends]))
    have hst : s.step cd (.append h c) = (s.put h (append cd ⟨s.bytes, s.bytes.length⟩ c .none).1, .appended (.ok ())) := by
      unfold SharedFile.step
      simp only [hpos, h1]
    rw [hst]
    have hpre : s.bytes <+: (append cd ⟨s.bytes, s.bytes.length⟩ c .none).1.bytes := by
      cases hc : c.isEmpty with
      | true => rw [append_empty cd _ c hc]; exact List.prefix_refl _
      | false =>
        have := append_at cd s.bytes [] c hc
        rw [List.append_nil] at this
        rw [this]
        exact List.prefix_append _ _
    have hsa : sharedAppends [SharedOp.append h c] = [c] := rfl
    rw [hsa]
    revert h2 hpre
    generalize (append cd ⟨s.bytes, s.bytes.length⟩ c .none).1 = f'
    rintro ⟨v, rfl, hv⟩ hpre
    refine ⟨⟨⟨v, rfl, hv⟩, ?_, ?_⟩, hpre, fun i hi => put_pos_other _ hi _, rfl⟩
    · intro i hi
      obtain ⟨-, h3, -⟩ := upToDate_snoc hi (fun h' e => by cases e)
      have := h3 h c rfl
      subst this
      exact put_pos_self _ _ _
    · intro i y hy
      refine put_open (.inr ?_)
      rw [List.mem_append, List.mem_singleton] at hy
      rcases hy with hy | hy
      · exact hop i y hy
      · cases hy

theorem shared_run (hg : GoodCodec cd dom) {b : Bytes} {l0} (h0 : contents cd b = some (l0, none)) (ops : List (SharedOp K P T))
    (hd : Disciplined ops) (hdom : ∀ c ∈ sharedAppends ops, dom c) :
    SharedInv cd ops (l0 ++ nonEmpty (sharedAppends ops)) ((SharedFile.closed b).run cd ops) := by
  induction ops using List.reverseRecOn with
  | nil =>
    obtain ⟨u, t, h1, h2⟩ := contents_some hg.lawful hg.nil h0
    have := parses_none_rest hg h2
    subst this
    refine ⟨⟨u, h1, by simpa [sharedAppends, nonEmpty] using h2⟩, ?_, ?_⟩
    · rintro h ⟨a, b, e, -⟩
      cases a <;> cases e
    · intro h x hx; cases hx
  | append_singleton ops op ih =>
    rw [sharedAppends_snoc] at hdom ⊢
    rw [run_snoc, nonEmpty_append, ← List.append_assoc]
    exact (shared_step hg (ih (disciplined_init hd) (fun c hc => hdom c (by simp [hc]))) hd (fun c hc => hdom c (by simp [hc]))).1

/-- calls on other stores leave the position of this one alone, and only add to the file -/
theorem shared_others (hg : GoodCodec cd dom) {b : Bytes} {l0} (h0 : contents cd b = some (l0, none)) (a r : List (SharedOp K P T))
    (hd : Disciplined (a ++ r)) (hdom : ∀ c ∈ sharedAppends (a ++ r), dom c) {h : Nat} (hr : ∀ op ∈ r, storeOf op ≠ h) :
    ((SharedFile.closed b).run cd a).bytes <+: ((SharedFile.closed b).run cd (a ++ r)).bytes ∧
    ((SharedFile.closed b).run cd (a ++ r)).pos h = ((SharedFile.closed b).run cd a).pos h := by
  induction r using List.reverseRecOn with
  | nil => rw [List.append_nil]; exact ⟨List.prefix_refl _, rfl⟩
  | append_singleton r op ih =>
    rw [← List.append_assoc] at hd hdom ⊢
    rw [sharedAppends_snoc] at hdom
    obtain ⟨h1, h2⟩ := ih (disciplined_init hd) (fun c hc => hdom c (by simp [hc])) (fun o ho => hr o (by simp [ho]))
    rw [run_snoc]
    obtain ⟨-, h3, h4, -⟩ := shared_step hg (shared_run hg h0 _ (disciplined_init hd) (fun c hc => hdom c (by simp [hc]))) hd
      (fun c hc => hdom c (by simp [hc]))
    exact ⟨h1.trans h3, by rw [h4 h (fun e => hr op (by simp) e.symm), h2]⟩

/-! ## two stores at the same place -/

/-- writing only ever happens from the position on, and the position never goes back -/
theorem append_keeps (f : KeychainStore) (c : KeychainChangeSet K P T) (x : WriteFault) {p : Nat} (h1 : p ≤ f.pos) (h2 : p ≤ f.bytes.length) :
    (append cd f c x).1.bytes.take p = f.bytes.take p ∧ p ≤ (append cd f c x).1.pos ∧ p ≤ (append cd f c x).1.bytes.length := by
  have hw : ∀ e : Bytes, (f.write e).bytes.take p = f.bytes.take p ∧ p ≤ (f.write e).pos ∧ p ≤ (f.write e).bytes.length := by
    intro e
    unfold File.write
    refine ⟨?_, by show p ≤ f.pos + e.length; omega, ?_⟩
    · show (f.bytes.take f.pos ++ _ ++ e ++ _).take p = _
      rw [List.append_assoc, List.append_assoc, List.take_append_of_le_length (by rw [List.length_take]; omega), List.take_take, Nat.min_eq_left h1]
    · simp only [List.length_append, List.length_take]; omega
  have hs : ∀ (g : File) (n : Nat), p ≤ n → p ≤ g.bytes.length → (g.setLen n).bytes.take p = g.bytes.take p ∧ p ≤ (g.setLen n).bytes.length := by
    intro g n hn hl
    unfold File.setLen
    refine ⟨?_, ?_⟩
    · show (g.bytes.take n ++ _).take p = _
      rw [List.take_append_of_le_length (by rw [List.length_take]; omega), List.take_take, Nat.min_eq_left hn]
    · simp only [List.length_append, List.length_take]; omega
  cases hc : c.isEmpty with
  | true => rw [append_empty cd f c hc]; exact ⟨rfl, h1, h2⟩
  | false =>
    unfold append
    simp only [hc, Bool.false_eq_true, if_false]
    have h3 := hw (cd.enc c)
    have h4 := hs (f.write (cd.enc c)) (f.pos + (cd.enc c).length) (by omega) h3.2.2
    cases x with
    | write k => exact hw _
    | truncate => exact h3
    | none => exact ⟨h4.1.trans h3.1, h3.2.1, h4.2⟩
    | sync => exact ⟨h4.1.trans h3.1, h3.2.1, h4.2⟩

/-- a write that succeeds leaves what was before the position, and the entry: it does not matter what was behind -/
theorem append_cuts {b b' : Bytes} {p : Nat} (h : b'.take p = b.take p) (hp : p ≤ b.length) (hp' : p ≤ b'.length)
    {c : KeychainChangeSet K P T} (hc : c.isEmpty = false) {x : WriteFault} {f} (ha : append cd ⟨b', p⟩ c x = (f, .ok ())) :
    append cd ⟨b, p⟩ c x = (f, .ok ()) := by
  have key : ∀ d : Bytes, p ≤ d.length → ((⟨d, p⟩ : File).write (cd.enc c)).setLen (p + (cd.enc c).length) =
      ⟨d.take p ++ cd.enc c, p + (cd.enc c).length⟩ := by
    intro d hd
    have hl : (d.take p).length = p := by rw [List.length_take]; omega
    have h1 := write_at (d.take p) (d.drop p) (cd.enc c)
    rw [List.take_append_drop, hl] at h1
    rw [h1, setLen_at _ _ _ _ _ (by rw [hl])]
  unfold append at ha ⊢
  simp only [hc, Bool.false_eq_true, if_false] at ha ⊢
  cases x with
  | write k => simp only [Prod.mk.injEq] at ha; cases ha.2
  | truncate => simp only [Prod.mk.injEq] at ha; cases ha.2
  | none =>
    simp only at ha ⊢
    rw [key b' hp', h] at ha
    rw [key b hp]; exact ha
  | sync =>
    simp only at ha ⊢
    rw [key b' hp', h] at ha
    rw [key b hp]; exact ha

end Verif.Props
