import Verif.Lemmas.Plan2

/-! # Lemmas on spending plans: the completed witness runs -/

namespace Verif.Planner
open Verif.Tapscript Spec

variable {Key Ak : Type}

theorem witnessOf_one {lib : Lib Key} {m : Material Key} {i : TemplateItem Key Ak} {w : List Bytes}
    (h : Plan.witnessOf lib m [i] = some w) : ∃ x, i.toWitness lib m = some x ∧ w = [x] := by
  simp only [Plan.witnessOf] at h
  cases hi : i.toWitness lib m with
  | none => rw [hi] at h; simp at h
  | some x => rw [hi] at h; exact ⟨x, rfl, by simpa using h.symm⟩

theorem witnessOf_push {lib : Lib Key} {m : Material Key} {p : TermPlan Key Ak} {i : TemplateItem Key Ak}
    {w : List Bytes} (h : Plan.witnessOf lib m (p.push i).template = some w) :
    ∃ w' x, Plan.witnessOf lib m p.template = some w' ∧ i.toWitness lib m = some x ∧ w = w' ++ [x] := by
  obtain ⟨wa, wb, h1, h2, h3⟩ := witnessOf_append lib m p.template [i] w h
  obtain ⟨x, hx, e⟩ := witnessOf_one h2
  exact ⟨wa, x, h1, hx, by rw [h3, e]⟩

theorem good_hash {c : Ctx} {x h : Bytes} {f : Bytes → Bytes} {o : Op} (hlen : x.length = 32) (hf : f x = h)
    (ho : ∀ y st alt, step c o (y :: st, alt) = some (f y :: st, alt)) :
    Good c (.op .size ;; .op (.push (scriptNum 32)) ;; .op .equalVerify ;; .op o ;; .op (.push h) ;; .op .equal)
      ⟨.B, false, true, true⟩ [x] := by
  refine ⟨?_, by simp, fun _ => ⟨x, rfl⟩, fun _ => ⟨x, [], rfl, ?_, by omega⟩⟩
  · intro rest alt
    refine ⟨[1], ?_, by decide, by decide⟩
    have h1 : exec c (.op .size) ([x].reverse ++ rest, alt) = some (scriptNum 32 :: x :: rest, alt) := by
      simp [exec, step, hlen]
    have h2 : exec c (.op (.push (scriptNum 32))) (scriptNum 32 :: x :: rest, alt)
        = some (scriptNum 32 :: scriptNum 32 :: x :: rest, alt) := rfl
    have h3 : exec c (.op .equalVerify) (scriptNum 32 :: scriptNum 32 :: x :: rest, alt) = some (x :: rest, alt) := by
      simp [exec, step]
    have h4 : exec c (.op o) (x :: rest, alt) = some (h :: rest, alt) := by
      simp only [exec, ho, hf]
    rw [exec_seq _ _ _ _ _ h1, exec_seq _ _ _ _ _ h2, exec_seq _ _ _ _ _ h3, exec_seq _ _ _ _ _ h4]
    simp [exec, step, ofBool]
  · intro e; rw [e] at hlen; simp at hlen

theorem scriptNum_len {x : Bytes} (h : x ≠ []) (hl : x.length ≤ 65) :
    truthy (scriptNum x.length) = true ∧ (scriptNum x.length).length ≤ 4 := by
  apply scriptNum_facts
  · exact List.length_pos_iff.2 h
  · omega

theorem good_of_plan (lib : Lib Key) (xonly : Key → Bytes) (hx : ∀ k, (xonly k).length = 32) (c : Ctx)
    (m : Material Key) (gen : Genuine xonly c m) (cd : Ak → Key → Option Path) (a : Assets Ak) (ms : Ms Key) :
    ∀ (t : Ty) (p : TermPlan Key Ak) (w : List Bytes), typeOf ms = some t →
      planSteps cd a ms = .ret (some p) → OneSided ms → NoPkH ms → Olders CleanSeq ms →
      CtxOk c p.minLocktime p.minSequence → Plan.witnessOf lib m p.template = some w →
      Good c (compile xonly c.hash160 ms) t w := by
  induction ms with
  | tru =>
    intro t p w ht hp _ _ _ _ hw
    simp [planSteps] at hp
    simp [typeOf] at ht
    subst hp ht
    simp [Plan.witnessOf] at hw
    subst hw
    refine ⟨?_, fun _ => rfl, by simp, by simp⟩
    intro rest alt
    exact ⟨[1], rfl, by decide, by decide⟩
  | pkK k =>
    intro t p w ht hp _ _ _ _ hw
    simp [planSteps] at hp
    simp [typeOf] at ht
    obtain ⟨pk, hpk, e⟩ := hp
    subst e ht
    obtain ⟨x, hx', e⟩ := witnessOf_one hw
    subst e
    have hk : pk.descriptorKey = k := by
      unfold findKey at hpk
      obtain ⟨ak, _, h⟩ := List.exists_of_findSome?_eq_some hpk
      simp at h
      obtain ⟨_, _, e⟩ := h
      rw [← e]
    simp only [TemplateItem.toWitness, Option.map_eq_some_iff] at hx'
    obtain ⟨sig, hs, e⟩ := hx'
    subst e
    rw [hk] at hs
    have hl := toVec_len (gen.sig_len _ _ hs)
    have hne : sig.toVec ≠ [] := by intro e; rw [e] at hl; simp at hl
    refine ⟨?_, by simp, fun _ => ⟨_, rfl⟩, fun _ => ⟨_, [], rfl, hne, hl.2⟩⟩
    intro rest alt
    exact ⟨xonly k, sig.toVec, by simp [compile, exec, step], hx k, hne, gen.sig_ok _ _ hs⟩
  | pkH k => intro t p w ht hp _ hk; simp [NoPkH] at hk
  | after n =>
    intro t p w ht hp _ _ _ hc hw
    simp only [typeOf] at ht
    split at ht
    · rename_i hn
      simp [planSteps] at hp
      have := Option.some.inj ht
      subst this
      have e := (planAfter_inv hp).2
      subst e
      simp [Plan.witnessOf] at hw
      subst hw
      have hcl := cltvOk_of (hc.locktime _ rfl)
      refine ⟨?_, fun _ => rfl, by simp, by simp⟩
      intro rest alt
      exact ⟨scriptNum n, by simp [compile, exec, step, hcl], scriptNum_facts n hn.1 hn.2⟩
    · cases ht
  | older n =>
    intro t p w ht hp _ _ _ hc hw
    simp only [typeOf] at ht
    split at ht
    · rename_i hn
      simp [planSteps] at hp
      have := Option.some.inj ht
      subst this
      have e := (planOlder_inv hp).2
      subst e
      simp [Plan.witnessOf] at hw
      subst hw
      have hcl := csvOk_of (hc.sequence _ rfl)
      refine ⟨?_, fun _ => rfl, by simp, by simp⟩
      intro rest alt
      exact ⟨scriptNum n, by simp [compile, exec, step, hcl], scriptNum_facts n hn.1 hn.2⟩
    · cases ht
  | sha256 h =>
    intro t p w ht hp _ _ _ _ hw
    simp [planSteps] at hp
    simp [typeOf] at ht
    obtain ⟨_, e⟩ := hp
    subst e ht
    obtain ⟨x, hx', e⟩ := witnessOf_one hw
    subst e
    obtain ⟨h1, h2⟩ := gen.sha256 _ _ hx'
    exact good_hash h1 h2 (fun _ _ _ => rfl)
  | hash256 h =>
    intro t p w ht hp _ _ _ _ hw
    simp [planSteps] at hp
    simp [typeOf] at ht
    obtain ⟨_, e⟩ := hp
    subst e ht
    obtain ⟨x, hx', e⟩ := witnessOf_one hw
    subst e
    obtain ⟨h1, h2⟩ := gen.hash256 _ _ hx'
    exact good_hash h1 h2 (fun _ _ _ => rfl)
  | ripemd160 h =>
    intro t p w ht hp _ _ _ _ hw
    simp [planSteps] at hp
    simp [typeOf] at ht
    obtain ⟨_, e⟩ := hp
    subst e ht
    obtain ⟨x, hx', e⟩ := witnessOf_one hw
    subst e
    obtain ⟨h1, h2⟩ := gen.ripemd160 _ _ hx'
    exact good_hash h1 h2 (fun _ _ _ => rfl)
  | hash160 h =>
    intro t p w ht hp _ _ _ _ hw
    simp [planSteps] at hp
    simp [typeOf] at ht
    obtain ⟨_, e⟩ := hp
    subst e ht
    obtain ⟨x, hx', e⟩ := witnessOf_one hw
    subst e
    obtain ⟨h1, h2⟩ := gen.hash160 _ _ hx'
    exact good_hash h1 h2 (fun _ _ _ => rfl)
  | alt x ih =>
    intro t p w ht hp ho hk hol hc hw
    simp only [typeOf] at ht
    cases htx : typeOf x with
    | none => rw [htx] at ht; cases ht
    | some tx =>
      obtain ⟨b, z, o, n⟩ := tx
      rw [htx] at ht
      cases b <;> simp at ht
      subst ht
      simp only [planSteps] at hp
      have g := ih _ p w htx hp ho hk hol hc hw
      refine ⟨?_, by simp, by simp, by simp⟩
      intro y rest alt
      obtain ⟨e, he, h1, h2⟩ := g.runs rest (y :: alt)
      exact ⟨e, .inr (by simp [compile, exec, step, he]), h1, h2⟩
  | swap x ih =>
    intro t p w ht hp ho hk hol hc hw
    simp only [typeOf] at ht
    cases htx : typeOf x with
    | none => rw [htx] at ht; cases ht
    | some tx =>
      obtain ⟨b, z, o, n⟩ := tx
      rw [htx] at ht
      cases b <;> cases o <;> simp at ht
      subst ht
      simp only [planSteps] at hp
      have g := ih _ p w htx hp ho hk hol hc hw
      obtain ⟨y, e⟩ := g.o rfl
      subst e
      refine ⟨?_, by simp, by simp, by simp⟩
      intro q rest alt
      obtain ⟨e, he, h1, h2⟩ := g.runs (q :: rest) alt
      refine ⟨e, .inl ?_, h1, h2⟩
      simp at he
      simp [compile, exec, step, he]
  | check x ih =>
    intro t p w ht hp ho hk hol hc hw
    simp only [typeOf] at ht
    cases htx : typeOf x with
    | none => rw [htx] at ht; cases ht
    | some tx =>
      obtain ⟨b, z, o, n⟩ := tx
      rw [htx] at ht
      cases b <;> simp at ht
      subst ht
      simp only [planSteps] at hp
      have g := ih _ p w htx hp ho hk hol hc hw
      refine ⟨?_, by simp, fun h => g.o h, fun h => g.n h⟩
      intro rest alt
      obtain ⟨key, sig, he, h1, h2, h3⟩ := g.runs rest alt
      have hkne : key ≠ [] := by intro e; rw [e] at h1; simp at h1
      exact ⟨[1], by simp [compile, exec, step, he, h1, h2, h3, hkne], by decide, by decide⟩
  | dupIf x ih =>
    intro t p w ht hp ho hk hol hc hw
    simp only [typeOf] at ht
    cases htx : typeOf x with
    | none => rw [htx] at ht; cases ht
    | some tx =>
      obtain ⟨b, z, o, n⟩ := tx
      rw [htx] at ht
      cases b <;> cases z <;> simp at ht
      subst ht
      obtain ⟨q, hq, e⟩ := dupIf_inv hp
      subst e
      obtain ⟨w', y, hw', hy, e⟩ := witnessOf_push hw
      subst e
      have g := ih _ q w' htx hq ho hk hol hc hw'
      have hw0 := g.z rfl
      subst hw0
      simp [TemplateItem.toWitness] at hy
      subst hy
      refine ⟨?_, by simp, fun _ => ⟨_, rfl⟩, fun _ => ⟨[1], [], rfl, by simp, by simp⟩⟩
      intro rest alt
      have he : exec c (compile xonly c.hash160 x) ([1] :: rest, alt) = some ([1] :: rest, alt) := by
        simpa using g.runs ([1] :: rest) alt
      exact ⟨[1], by simp [compile, exec, step, he], by decide, by decide⟩
  | verify x ih =>
    intro t p w ht hp ho hk hol hc hw
    simp only [typeOf] at ht
    cases htx : typeOf x with
    | none => rw [htx] at ht; cases ht
    | some tx =>
      obtain ⟨b, z, o, n⟩ := tx
      rw [htx] at ht
      cases b <;> simp at ht
      subst ht
      simp only [planSteps] at hp
      have g := ih _ p w htx hp ho hk hol hc hw
      refine ⟨?_, fun h => g.z h, fun h => g.o h, fun h => g.n h⟩
      intro rest alt
      obtain ⟨e, he, h1, h2⟩ := g.runs rest alt
      simp [compile, exec, step, he, h1]
  | nonZero x ih =>
    intro t p w ht hp ho hk hol hc hw
    simp only [typeOf] at ht
    cases htx : typeOf x with
    | none => rw [htx] at ht; cases ht
    | some tx =>
      obtain ⟨b, z, o, n⟩ := tx
      rw [htx] at ht
      cases b <;> cases n <;> simp at ht
      subst ht
      simp only [planSteps] at hp
      have g := ih _ p w htx hp ho hk hol hc hw
      refine ⟨?_, by simp, fun h => g.o h, fun h => g.n h⟩
      intro rest alt
      obtain ⟨y, init, e, hy, hl⟩ := g.n rfl
      obtain ⟨r, hr, h1, h2⟩ := g.runs rest alt
      obtain ⟨h3, h4⟩ := scriptNum_len hy hl
      subst e
      refine ⟨r, ?_, h1, h2⟩
      simp at hr
      simp [compile, exec, step, h3, h4, ofBool, hr]
  | zeroNotEqual x ih =>
    intro t p w ht hp ho hk hol hc hw
    simp only [typeOf] at ht
    cases htx : typeOf x with
    | none => rw [htx] at ht; cases ht
    | some tx =>
      obtain ⟨b, z, o, n⟩ := tx
      rw [htx] at ht
      cases b <;> simp at ht
      subst ht
      simp only [planSteps] at hp
      have g := ih _ p w htx hp ho hk hol hc hw
      refine ⟨?_, fun h => g.z h, fun h => g.o h, fun h => g.n h⟩
      intro rest alt
      obtain ⟨e, he, h1, h2⟩ := g.runs rest alt
      exact ⟨[1], by simp [compile, exec, step, he, h1, h2, ofBool], by decide, by decide⟩
  | andV x y ihx ihy =>
    intro t p w ht hp ho hk hol hc hw
    simp only [typeOf] at ht
    cases htx : typeOf x with
    | none => rw [htx] at ht; cases ht
    | some tx =>
      cases hty : typeOf y with
      | none => rw [htx, hty] at ht; obtain ⟨b, z, o, n⟩ := tx; cases b <;> simp at ht
      | some ty =>
        obtain ⟨b, z, o, n⟩ := tx
        obtain ⟨b', z', o', n'⟩ := ty
        rw [htx, hty] at ht
        cases b <;> simp at ht
        obtain ⟨hb', ht⟩ := ht
        subst ht
        rw [andV_eq_andB] at hp
        obtain ⟨l, r, hl, hr, hcomb⟩ := andB_inv hp
        obtain ⟨c1, c2, c3⟩ := combine_eq hcomb
        have clt := combineLocktime_meets c1 hc.locktime
        have csq := combineSequence_meets c2 (minSequence_olders hol.1 hl) (minSequence_olders hol.2 hr) hc.sequence
        rw [c3] at hw
        obtain ⟨wl, wr, hwl, hwr, e⟩ := witnessOf_append lib m _ _ _ hw
        subst e
        have gx := ihx _ l wl htx hl ho.2.1 hk.1 hol.1 ⟨clt.1, csq.2.1⟩ hwl
        have gy := ihy _ r wr hty hr ho.2.2 hk.2 hol.2 ⟨clt.2, csq.2.2⟩ hwr
        have hsw : wl = [] ∨ wr = [] := by
          rcases ho.1 with h | h
          · left
            rw [template_noArgs h hl] at hwl
            simp [Plan.witnessOf] at hwl; exact hwl
          · right
            rw [template_noArgs h hr] at hwr
            simp [Plan.witnessOf] at hwr; exact hwr
        have hrun : ∀ rest alt, exec c (compile xonly c.hash160 x) ((wl ++ wr).reverse ++ rest, alt)
            = some (wr.reverse ++ rest, alt) := by
          intro rest alt
          rcases hsw with h | h
          · subst h
            simpa using gx.runs (wr.reverse ++ rest) alt
          · subst h
            simpa using gx.runs rest alt
        refine ⟨?_, ?_, ?_, ?_⟩
        · cases b' with
          | B =>
            intro rest alt
            obtain ⟨e, he, h1, h2⟩ := gy.runs rest alt
            exact ⟨e, by rw [compile, exec_seq _ _ _ _ _ (hrun rest alt), he], h1, h2⟩
          | V =>
            intro rest alt
            rw [compile, exec_seq _ _ _ _ _ (hrun rest alt)]
            exact gy.runs rest alt
          | K =>
            intro rest alt
            obtain ⟨k, s, he, h1⟩ := gy.runs rest alt
            exact ⟨k, s, by rw [compile, exec_seq _ _ _ _ _ (hrun rest alt), he], h1⟩
          | W => simp at hb'
        · intro h
          simp at h
          rw [gx.z h.1, gy.z h.2]; rfl
        · intro h
          simp at h
          rcases h with ⟨h1, h2⟩ | ⟨h1, h2⟩
          · obtain ⟨q, e⟩ := gy.o h2
            exact ⟨q, by rw [gx.z h1, e]; rfl⟩
          · obtain ⟨q, e⟩ := gx.o h2
            exact ⟨q, by rw [gy.z h1, e]; rfl⟩
        · intro h
          simp at h
          rcases h with h1 | ⟨h1, h2⟩
          · obtain ⟨q, i, e, h3, h4⟩ := gx.n h1
            rcases hsw with h5 | h5
            · rw [h5] at e; simp at e
            · exact ⟨q, i, by rw [h5, e, List.append_nil], h3, h4⟩
          · obtain ⟨q, i, e, h3, h4⟩ := gy.n h2
            exact ⟨q, i, by rw [gx.z h1, e]; rfl, h3, h4⟩
  | andB x y ihx ihy =>
    intro t p w ht hp ho hk hol hc hw
    simp only [typeOf] at ht
    cases htx : typeOf x with
    | none => rw [htx] at ht; cases ht
    | some tx =>
      cases hty : typeOf y with
      | none => rw [htx, hty] at ht; obtain ⟨b, z, o, n⟩ := tx; cases b <;> simp at ht
      | some ty =>
        obtain ⟨b, z, o, n⟩ := tx
        obtain ⟨b', z', o', n'⟩ := ty
        rw [htx, hty] at ht
        cases b <;> cases b' <;> simp at ht
        subst ht
        obtain ⟨l, r, hl, hr, hcomb⟩ := andB_inv hp
        obtain ⟨c1, c2, c3⟩ := combine_eq hcomb
        have clt := combineLocktime_meets c1 hc.locktime
        have csq := combineSequence_meets c2 (minSequence_olders hol.1 hl) (minSequence_olders hol.2 hr) hc.sequence
        rw [c3] at hw
        obtain ⟨wl, wr, hwl, hwr, e⟩ := witnessOf_append lib m _ _ _ hw
        subst e
        have gx := ihx _ l wl htx hl ho.2.1 hk.1 hol.1 ⟨clt.1, csq.2.1⟩ hwl
        have gy := ihy _ r wr hty hr ho.2.2 hk.2 hol.2 ⟨clt.2, csq.2.2⟩ hwr
        have hsw : wl = [] ∨ wr = [] := by
          rcases ho.1 with h | h
          · left
            rw [template_noArgs h hl] at hwl
            simp [Plan.witnessOf] at hwl; exact hwl
          · right
            rw [template_noArgs h hr] at hwr
            simp [Plan.witnessOf] at hwr; exact hwr
        refine ⟨?_, ?_, ?_, ?_⟩
        · intro rest alt
          have hrun : ∃ e, exec c (compile xonly c.hash160 x) ((wl ++ wr).reverse ++ rest, alt)
              = some (e :: (wr.reverse ++ rest), alt) ∧ truthy e = true ∧ e.length ≤ 4 := by
            rcases hsw with h | h
            · subst h
              simpa using gx.runs (wr.reverse ++ rest) alt
            · subst h
              simpa using gx.runs rest alt
          obtain ⟨e, he, h1, h2⟩ := hrun
          obtain ⟨e', he', h1', h2'⟩ := gy.runs e rest alt
          refine ⟨[1], ?_, by decide, by decide⟩
          rw [compile, exec_seq _ _ _ _ _ he]
          rcases he' with h | h
          · rw [exec_seq _ _ _ _ _ h]
            simp [exec, step, h1, h1', h2, h2', ofBool]
          · rw [exec_seq _ _ _ _ _ h]
            simp [exec, step, h1, h1', h2, h2', ofBool]
        · intro h
          simp at h
          rw [gx.z h.1, gy.z h.2]; rfl
        · intro h
          simp at h
          rcases h with ⟨h1, h2⟩ | ⟨h1, h2⟩
          · obtain ⟨q, e⟩ := gy.o h2
            exact ⟨q, by rw [gx.z h1, e]; rfl⟩
          · obtain ⟨q, e⟩ := gx.o h2
            exact ⟨q, by rw [gy.z h1, e]; rfl⟩
        · intro h
          simp at h
          rcases h with h1 | ⟨h1, h2⟩
          · obtain ⟨q, i, e, h3, h4⟩ := gx.n h1
            rcases hsw with h5 | h5
            · rw [h5] at e; simp at e
            · exact ⟨q, i, by rw [h5, e, List.append_nil], h3, h4⟩
          · obtain ⟨q, i, e, h3, h4⟩ := gy.n h2
            exact ⟨q, i, by rw [gx.z h1, e]; rfl, h3, h4⟩
  | orI x y ihx ihy =>
    intro t p w ht hp ho hk hol hc hw
    simp only [typeOf] at ht
    cases htx : typeOf x with
    | none => rw [htx] at ht; cases ht
    | some tx =>
      cases hty : typeOf y with
      | none => rw [htx, hty] at ht; cases ht
      | some ty =>
        obtain ⟨b, z, o, n⟩ := tx
        obtain ⟨b', z', o', n'⟩ := ty
        rw [htx, hty] at ht
        simp at ht
        obtain ⟨⟨hb, hw'⟩, ht⟩ := ht
        subst hb ht
        rcases orI_inv hp with ⟨q, hq, e⟩ | ⟨q, hq, e⟩
        · subst e
          obtain ⟨w', v, hw1, hv, e⟩ := witnessOf_push hw
          subst e
          have g := ihx _ q w' htx hq ho.1 hk.1 hol.1 hc hw1
          simp [TemplateItem.toWitness] at hv
          subst hv
          refine ⟨?_, by simp, ?_, by simp⟩
          · have h := g.runs
            cases b with
            | B => intro rest alt; simpa [compile, exec] using h rest alt
            | V => intro rest alt; simpa [compile, exec] using h rest alt
            | K => intro rest alt; simpa [compile, exec] using h rest alt
            | W => simp at hw'
          · intro h
            simp at h
            exact ⟨_, by rw [g.z h.1]; rfl⟩
        · subst e
          obtain ⟨w', v, hw1, hv, e⟩ := witnessOf_push hw
          subst e
          have g := ihy _ q w' hty hq ho.2 hk.2 hol.2 hc hw1
          simp [TemplateItem.toWitness] at hv
          subst hv
          refine ⟨?_, by simp, ?_, by simp⟩
          · have h := g.runs
            cases b with
            | B => intro rest alt; simpa [compile, exec] using h rest alt
            | V => intro rest alt; simpa [compile, exec] using h rest alt
            | K => intro rest alt; simpa [compile, exec] using h rest alt
            | W => simp at hw'
          · intro h
            simp at h
            exact ⟨_, by rw [g.z h.2]; rfl⟩
  | _ =>
    intro t p w ht hp
    simp [planSteps] at hp

end Verif.Planner
