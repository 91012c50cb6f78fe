import Mathlib.Order.Defs.LinearOrder
import Mathlib.Order.Basic
import Mathlib.Data.Prod.Lex

/-!
# Ordered maps and sets

`OMap K V` models `std::collections::BTreeMap<K, V>` (and, extensionally, `HashMap<K, V>`): a list of
entries strictly sorted by key.  `OSet K` models `BTreeSet<K>` / `HashSet<K>`.
Only documented behaviour of the Rust containers is modelled (sorted iteration, insert overwrites,
remove, range, collect, append = right biased union).
-/

namespace Verif

/-- `BTreeMap<K, V>`: entries in ascending key order. -/
structure OMap (K V : Type) [LinearOrder K] where
  entries : List (K × V)
  sorted : entries.Pairwise (fun a b => a.1 < b.1)

namespace OMap

section raw
variable {K V : Type} [LinearOrder K]

/-- lookup in an entry list -/
def rawGet (k : K) : List (K × V) → Option V
  | [] => none
  | (k', v) :: l => if k = k' then some v else rawGet k l

/-- sorted insertion, overwriting an existing entry -/
def rawInsert (k : K) (v : V) : List (K × V) → List (K × V)
  | [] => [(k, v)]
  | (k', v') :: l =>
    if k < k' then (k, v) :: (k', v') :: l
    else if k = k' then (k, v) :: l
    else (k', v') :: rawInsert k v l

theorem rawGet_eq_none_of_lt {k : K} {l : List (K × V)} (h : ∀ e ∈ l, k < e.1) :
    rawGet k l = none := by
  induction l with
  | nil => rfl
  | cons e l ih =>
    obtain ⟨k', v'⟩ := e
    have h1 : k < k' := h (k', v') (by simp)
    simp only [rawGet]
    rw [if_neg h1.ne, ih (fun e he => h e (by simp [he]))]

theorem mem_of_rawGet {k : K} {v : V} {l : List (K × V)} (h : rawGet k l = some v) : (k, v) ∈ l := by
  induction l with
  | nil => simp [rawGet] at h
  | cons e l ih =>
    obtain ⟨k', v'⟩ := e
    simp only [rawGet] at h
    split at h
    · next hk => subst hk; simp_all
    · exact List.mem_cons_of_mem _ (ih h)

theorem rawGet_of_mem {k : K} {v : V} {l : List (K × V)} (hs : l.Pairwise (fun a b => a.1 < b.1))
    (h : (k, v) ∈ l) : rawGet k l = some v := by
  induction l with
  | nil => simp at h
  | cons e l ih =>
    obtain ⟨k', v'⟩ := e
    rw [List.pairwise_cons] at hs
    simp only [rawGet]
    rcases List.mem_cons.1 h with h | h
    · simp at h; simp [h]
    · have := hs.1 _ h
      simp only at this
      rw [if_neg this.ne', ih hs.2 h]

theorem mem_rawInsert {k : K} {v : V} {l : List (K × V)} {e : K × V} (h : e ∈ rawInsert k v l) :
    e = (k, v) ∨ e ∈ l := by
  induction l with
  | nil => simpa [rawInsert] using h
  | cons e' l ih =>
    obtain ⟨k', v'⟩ := e'
    simp only [rawInsert] at h
    split at h
    · simpa using h
    · split at h
      · simp at h ⊢; tauto
      · rcases List.mem_cons.1 h with h | h
        · simp [h]
        · rcases ih h with h | h
          · simp [h]
          · simp [h]

theorem rawInsert_sorted {k : K} {v : V} {l : List (K × V)} (hs : l.Pairwise (fun a b => a.1 < b.1)) :
    (rawInsert k v l).Pairwise (fun a b => a.1 < b.1) := by
  induction l with
  | nil => simp [rawInsert]
  | cons e l ih =>
    obtain ⟨k', v'⟩ := e
    have hs' := hs
    rw [List.pairwise_cons] at hs
    simp only [rawInsert]
    split
    · next h =>
      rw [List.pairwise_cons]
      refine ⟨?_, hs'⟩
      intro e he
      rcases List.mem_cons.1 he with he | he
      · subst he; exact h
      · exact lt_trans h (hs.1 _ he)
    · next h =>
      split
      · next hk =>
        subst hk
        rw [List.pairwise_cons]
        exact ⟨fun e he => hs.1 e he, hs.2⟩
      · next hk =>
        rw [List.pairwise_cons]
        refine ⟨?_, ih hs.2⟩
        intro e he
        rcases mem_rawInsert he with he | he
        · subst he; exact lt_of_le_of_ne (not_lt.1 h) (Ne.symm hk)
        · exact hs.1 _ he

theorem rawGet_rawInsert {k k2 : K} {v : V} {l : List (K × V)} (hs : l.Pairwise (fun a b => a.1 < b.1)) :
    rawGet k2 (rawInsert k v l) = if k2 = k then some v else rawGet k2 l := by
  induction l with
  | nil => simp [rawInsert, rawGet]
  | cons e l ih =>
    obtain ⟨k', v'⟩ := e
    rw [List.pairwise_cons] at hs
    simp only [rawInsert]
    split
    · simp [rawGet]
    · split
      · next hk => subst hk; simp only [rawGet]; split <;> simp_all
      · next hk =>
        simp only [rawGet, ih hs.2]
        split
        · next h => subst h; rw [if_neg (Ne.symm hk)]
        · rfl

theorem raw_ext {l1 l2 : List (K × V)} (h1 : l1.Pairwise (fun a b => a.1 < b.1))
    (h2 : l2.Pairwise (fun a b => a.1 < b.1)) (h : ∀ k, rawGet k l1 = rawGet k l2) : l1 = l2 := by
  induction l1 generalizing l2 with
  | nil =>
    cases l2 with
    | nil => rfl
    | cons e l2 => have := h e.1; simp [rawGet] at this
  | cons e l1 ih =>
    obtain ⟨k, v⟩ := e
    cases l2 with
    | nil => have := h k; simp [rawGet] at this
    | cons e2 l2 =>
      obtain ⟨k2, v2⟩ := e2
      have m1 : (k, v) ∈ ((k2, v2) :: l2) := mem_of_rawGet (by rw [← h]; simp [rawGet])
      have m2 : (k2, v2) ∈ ((k, v) :: l1) := mem_of_rawGet (by rw [h]; simp [rawGet])
      rw [List.pairwise_cons] at h1 h2
      have hkk : (k, v) = (k2, v2) := by
        rcases List.mem_cons.1 m1 with m1 | m1
        · exact m1
        · rcases List.mem_cons.1 m2 with m2 | m2
          · exact m2.symm
          · exact absurd (lt_trans (h1.1 _ m2) (h2.1 _ m1)) (lt_irrefl _)
      obtain ⟨hk, hv⟩ := Prod.mk.inj hkk
      subst hk; subst hv
      congr 1
      apply ih h1.2 h2.2
      intro k'
      have := h k'
      simp only [rawGet] at this
      split at this
      · next hk => subst hk; rw [rawGet_eq_none_of_lt h1.1, rawGet_eq_none_of_lt h2.1]
      · exact this

end raw

variable {K V : Type} [LinearOrder K]

/-- the empty map -/
def empty : OMap K V := ⟨[], List.Pairwise.nil⟩
instance : EmptyCollection (OMap K V) := ⟨empty⟩
instance : Inhabited (OMap K V) := ⟨empty⟩

/-- `map.get(&k)` -/
def get (m : OMap K V) (k : K) : Option V := rawGet k m.entries
/-- `map.insert(k, v)` (the new map) -/
def insert (m : OMap K V) (k : K) (v : V) : OMap K V := ⟨rawInsert k v m.entries, rawInsert_sorted m.sorted⟩
/-- the sub-map of entries satisfying `p` -/
def filter (m : OMap K V) (p : K → V → Bool) : OMap K V :=
  ⟨m.entries.filter (fun e => p e.1 e.2), m.sorted.filter _⟩
/-- `map.remove(&k)` (the new map) -/
def erase (m : OMap K V) (k : K) : OMap K V := m.filter (fun k' _ => decide (k' ≠ k))
/-- `map.iter().map(|(k, v)| (k, f(k, v))).collect()` -/
def mapVal {W : Type} (m : OMap K V) (f : K → V → W) : OMap K W :=
  ⟨m.entries.map (fun e => (e.1, f e.1 e.2)), by
    rw [List.pairwise_map]; exact m.sorted⟩
/-- keys in ascending order -/
def keys (m : OMap K V) : List K := m.entries.map Prod.fst
/-- `map.contains_key(&k)` -/
def contains (m : OMap K V) (k : K) : Bool := (m.get k).isSome
/-- `iter.collect::<BTreeMap<_, _>>()`: later entries overwrite earlier ones -/
def ofList (l : List (K × V)) : OMap K V := l.foldl (fun m e => m.insert e.1 e.2) empty
/-- `a.append(&mut b)` / `a.extend(b)`: entries of `b` overwrite -/
def append (a b : OMap K V) : OMap K V := b.entries.foldl (fun m e => m.insert e.1 e.2) a
/-- `map.iter().last()` -/
def last? (m : OMap K V) : Option (K × V) := m.entries.getLast?
/-- `map.iter().next()` -/
def first? (m : OMap K V) : Option (K × V) := m.entries.head?
/-- `map.len()` -/
def size (m : OMap K V) : Nat := m.entries.length
/-- `map.is_empty()` -/
def isEmpty (m : OMap K V) : Bool := m.entries.isEmpty

instance [DecidableEq V] : DecidableEq (OMap K V) := fun a b =>
  decidable_of_iff (a.entries = b.entries) ⟨fun h => by cases a; cases b; simp_all, fun h => h ▸ rfl⟩

theorem ext_get {a b : OMap K V} (h : ∀ k, a.get k = b.get k) : a = b := by
  have := raw_ext a.sorted b.sorted h
  cases a; cases b; simp_all

@[simp] theorem get_empty (k : K) : (empty : OMap K V).get k = none := rfl
@[simp] theorem get_empty' (k : K) : (∅ : OMap K V).get k = none := rfl
theorem get_insert (m : OMap K V) (k k2 : K) (v : V) :
    (m.insert k v).get k2 = if k2 = k then some v else m.get k2 := rawGet_rawInsert m.sorted
@[simp] theorem get_insert_self (m : OMap K V) (k : K) (v : V) : (m.insert k v).get k = some v := by
  simp [get_insert]

theorem mem_entries {m : OMap K V} {k : K} {v : V} : (k, v) ∈ m.entries ↔ m.get k = some v :=
  ⟨rawGet_of_mem m.sorted, mem_of_rawGet⟩

theorem mem_keys {m : OMap K V} {k : K} : k ∈ m.keys ↔ ∃ v, m.get k = some v := by
  simp only [keys, List.mem_map]
  constructor
  · rintro ⟨⟨k', v⟩, h, rfl⟩; exact ⟨v, mem_entries.1 h⟩
  · rintro ⟨v, h⟩; exact ⟨(k, v), mem_entries.2 h, rfl⟩

theorem keys_sorted (m : OMap K V) : m.keys.Pairwise (· < ·) := by
  unfold keys; rw [List.pairwise_map]; exact m.sorted

theorem keys_nodup (m : OMap K V) : m.keys.Nodup :=
  (keys_sorted m).imp (fun h => ne_of_lt h)

theorem get_filter (m : OMap K V) (p : K → V → Bool) (k : K) :
    (m.filter p).get k = (m.get k).filter (p k) := by
  cases h : m.get k with
  | none =>
    cases h2 : (m.filter p).get k with
    | none => rfl
    | some v =>
      have := mem_entries.2 h2
      simp only [filter, List.mem_filter] at this
      rw [mem_entries.1 this.1] at h; cases h
  | some v =>
    simp only [Option.filter]
    split
    · next hp =>
      apply mem_entries.1
      simp only [filter, List.mem_filter]
      exact ⟨mem_entries.2 h, hp⟩
    · next hp =>
      cases h2 : (m.filter p).get k with
      | none => rfl
      | some v' =>
        have := mem_entries.2 h2
        simp only [filter, List.mem_filter] at this
        have h3 := mem_entries.1 this.1
        rw [h] at h3; cases h3
        exact absurd this.2 hp

theorem get_erase (m : OMap K V) (k k2 : K) :
    (m.erase k).get k2 = if k2 = k then none else m.get k2 := by
  unfold erase
  rw [get_filter]
  by_cases h : k2 = k
  · subst h; cases m.get k2 <;> simp
  · cases m.get k2 <;> simp [h]

theorem get_mapVal {W : Type} (m : OMap K V) (f : K → V → W) (k : K) :
    (m.mapVal f).get k = (m.get k).map (f k) := by
  have : ∀ l : List (K × V), rawGet k (l.map (fun e => (e.1, f e.1 e.2))) = (rawGet k l).map (f k) := by
    intro l
    induction l with
    | nil => rfl
    | cons e l ih =>
      simp only [List.map_cons, rawGet, ih]
      split
      · next h => subst h; rfl
      · rfl
  exact this m.entries

/-- Iterating a map and updating, for every entry, only the component with the entry's key. -/
theorem foldl_entries {S A : Type} (m : OMap K V) (step : S → K × V → S) (π : S → K → A)
    (F : K → V → A → A) (s : S)
    (hstep : ∀ s k v k', π (step s (k, v)) k' = if k' = k then F k v (π s k) else π s k') (k : K) :
    π (m.entries.foldl step s) k = match m.get k with
      | some v => F k v (π s k)
      | none => π s k := by
  obtain ⟨l, hl⟩ := m
  simp only [get]
  induction l generalizing s with
  | nil => rfl
  | cons e l ih =>
    obtain ⟨k1, v1⟩ := e
    rw [List.pairwise_cons] at hl
    simp only [List.foldl_cons]
    rw [ih (step s (k1, v1)) hl.2]
    simp only [rawGet]
    by_cases hk : k = k1
    · subst hk
      rw [rawGet_eq_none_of_lt hl.1]
      simp [hstep]
    · simp only [if_neg hk, hstep]

theorem rawGet_of_mem_nodup {k : K} {v : V} {l : List (K × V)} (hs : (l.map Prod.fst).Nodup)
    (h : (k, v) ∈ l) : rawGet k l = some v := by
  induction l with
  | nil => simp at h
  | cons e l ih =>
    obtain ⟨k', v'⟩ := e
    rw [List.map_cons, List.nodup_cons] at hs
    simp only [rawGet]
    rcases List.mem_cons.1 h with h | h2
    · simp at h; simp [h]
    · have : k ≠ k' := by
        rintro rfl; exact hs.1 (List.mem_map.2 ⟨_, h2, rfl⟩)
      rw [if_neg this, ih hs.2 h2]

theorem rawGet_perm {l l2 : List (K × V)} (hs : (l2.map Prod.fst).Nodup) (hp : l.Perm l2) (k : K) :
    rawGet k l = rawGet k l2 := by
  have hs1 : (l.map Prod.fst).Nodup := (hp.map Prod.fst).nodup_iff.2 hs
  cases h : rawGet k l2 with
  | some v => exact rawGet_of_mem_nodup hs1 (hp.mem_iff.2 (mem_of_rawGet h))
  | none =>
    cases h2 : rawGet k l with
    | none => rfl
    | some v =>
      have := rawGet_of_mem_nodup hs (hp.mem_iff.1 (mem_of_rawGet h2))
      rw [h] at this; cases this

/-- `foldl_entries` for an arbitrary iteration order -/
theorem foldl_perm {S A : Type} (m : OMap K V) (l : List (K × V)) (hp : l.Perm m.entries)
    (step : S → K × V → S) (π : S → K → A) (F : K → V → A → A) (s : S)
    (hstep : ∀ s k v k', π (step s (k, v)) k' = if k' = k then F k v (π s k) else π s k') (k : K) :
    π (l.foldl step s) k = match m.get k with
      | some v => F k v (π s k)
      | none => π s k := by
  have hnd : (l.map Prod.fst).Nodup := (hp.map Prod.fst).nodup_iff.2 m.keys_nodup
  have hg : m.get k = rawGet k l := (rawGet_perm m.keys_nodup hp k).symm
  rw [hg]
  clear hg hp
  induction l generalizing s with
  | nil => rfl
  | cons e l ih =>
    obtain ⟨k1, v1⟩ := e
    rw [List.map_cons, List.nodup_cons] at hnd
    simp only [List.foldl_cons]
    rw [ih (step s (k1, v1)) hnd.2]
    simp only [rawGet]
    by_cases hk : k = k1
    · subst hk
      have : rawGet k l = none := by
        cases h : rawGet k l with
        | none => rfl
        | some v => exact absurd (List.mem_map.2 ⟨_, mem_of_rawGet h, rfl⟩) hnd.1
      rw [this]
      simp [hstep]
    · simp only [if_neg hk, hstep]

theorem get_append (a b : OMap K V) (k : K) : (a.append b).get k = (b.get k).or (a.get k) := by
  unfold append
  rw [foldl_entries b (fun m e => m.insert e.1 e.2) (fun m k => m.get k) (fun _ v _ => some v) a
    (by intro s k v k'; simp only [get_insert])]
  cases b.get k <;> rfl

theorem get_ofList_foldl (l : List (K × V)) (m : OMap K V) (k : K) :
    (l.foldl (fun m e => m.insert e.1 e.2) m).get k = (rawGet k l.reverse).or (m.get k) := by
  induction l generalizing m with
  | nil => simp [rawGet]
  | cons e l ih =>
    obtain ⟨k1, v1⟩ := e
    simp only [List.foldl_cons, ih, get_insert, List.reverse_cons]
    have : ∀ l : List (K × V), rawGet k (l ++ [(k1, v1)]) = (rawGet k l).or (if k = k1 then some v1 else none) := by
      intro l
      induction l with
      | nil => simp [rawGet]
      | cons e l ih2 =>
        simp only [List.cons_append, rawGet, ih2]
        split <;> simp
    rw [this]
    cases rawGet k l.reverse with
    | some v => simp
    | none => simp; split <;> simp

/-- collecting pairs whose values are determined by the key -/
theorem get_ofList_of_fun {l : List (K × V)} {k : K} {v : V} (hv : ∀ v', (k, v') ∈ l → v' = v)
    (hm : (k, v) ∈ l) : (ofList l).get k = some v := by
  unfold ofList
  rw [get_ofList_foldl]
  have : ∀ l : List (K × V), (∀ v', (k, v') ∈ l → v' = v) → (k, v) ∈ l → rawGet k l = some v := by
    intro l
    induction l with
    | nil => simp
    | cons e l ih =>
      obtain ⟨k1, v1⟩ := e
      intro h1 h2
      simp only [rawGet]
      split
      · next h => subst h; rw [h1 v1 (by simp)]
      · next h =>
        apply ih (fun v' hv' => h1 v' (by simp [hv']))
        rcases List.mem_cons.1 h2 with h2 | h2
        · cases h2; exact absurd rfl h
        · exact h2
  rw [this l.reverse (by simpa using hv) (by simpa using hm)]; rfl

theorem get_ofList_none {l : List (K × V)} {k : K} (h : ∀ v, (k, v) ∉ l) : (ofList l).get k = none := by
  unfold ofList
  rw [get_ofList_foldl]
  have : rawGet k l.reverse = none := by
    cases h2 : rawGet k l.reverse with
    | none => rfl
    | some v => have := mem_of_rawGet h2; simp at this; exact absurd this (h v)
  simp [this]

theorem ofList_mem {l : List (K × V)} {k : K} {v : V} (h : (ofList l).get k = some v) : (k, v) ∈ l := by
  unfold ofList at h
  rw [get_ofList_foldl] at h
  simp at h
  have := mem_of_rawGet h
  simpa using this

theorem isEmpty_iff {m : OMap K V} : m.isEmpty = true ↔ m = empty := by
  constructor
  · intro h
    apply ext_get; intro k
    cases m with | mk l hl =>
    simp [isEmpty] at h; subst h; rfl
  · rintro rfl; rfl

theorem eq_empty_iff {m : OMap K V} : m = empty ↔ ∀ k, m.get k = none :=
  ⟨fun h => by subst h; simp, fun h => ext_get (by simpa using h)⟩

theorem last?_eq_none {m : OMap K V} : m.last? = none ↔ m = empty := by
  cases m with | mk l hl =>
  simp only [last?, List.getLast?_eq_none_iff]
  constructor
  · rintro rfl; rfl
  · intro h; cases h; rfl

theorem last?_eq_some {m : OMap K V} {k : K} {v : V} :
    m.last? = some (k, v) ↔ m.get k = some v ∧ ∀ k' v', m.get k' = some v' → k' ≤ k := by
  cases m with | mk l hl =>
  constructor
  · intro h
    simp only [last?] at h
    have hm := List.mem_of_getLast? h
    refine ⟨rawGet_of_mem hl hm, ?_⟩
    intro k' v' h'
    have h'm := mem_of_rawGet h'
    obtain ⟨l', rfl⟩ := List.getLast?_eq_some_iff.1 h
    rw [List.pairwise_append] at hl
    rcases List.mem_append.1 h'm with h1 | h1
    · exact le_of_lt (hl.2.2 _ h1 (k, v) (by simp))
    · simp at h1; exact le_of_eq h1.1
  · rintro ⟨h1, h2⟩
    simp only [last?]
    cases hlast : l.getLast? with
    | none => rw [List.getLast?_eq_none_iff] at hlast; subst hlast; simp [get, rawGet] at h1
    | some e =>
      obtain ⟨k', v'⟩ := e
      have hm := List.mem_of_getLast? hlast
      have hk' := h2 k' v' (rawGet_of_mem hl hm)
      obtain ⟨l', rfl⟩ := List.getLast?_eq_some_iff.1 hlast
      rw [List.pairwise_append] at hl
      have h1m := mem_of_rawGet h1
      rcases List.mem_append.1 h1m with h3 | h3
      · exact absurd (hl.2.2 _ h3 _ (by simp : (k', v') ∈ [(k', v')])) (not_lt.2 hk')
      · simp at h3; simp [h3]

theorem first?_eq_none {m : OMap K V} : m.first? = none ↔ m = empty := by
  cases m with | mk l hl =>
  cases l with
  | nil => simp [first?, empty]
  | cons e l => simp [first?, empty]

theorem first?_eq_some {m : OMap K V} {k : K} {v : V} :
    m.first? = some (k, v) ↔ m.get k = some v ∧ ∀ k' v', m.get k' = some v' → k ≤ k' := by
  cases m with | mk l hl =>
  cases l with
  | nil => simp [first?, get, rawGet]
  | cons e l =>
    obtain ⟨k1, v1⟩ := e
    have hl' := hl
    rw [List.pairwise_cons] at hl
    simp only [first?, List.head?_cons, Option.some.injEq, Prod.mk.injEq]
    constructor
    · rintro ⟨rfl, rfl⟩
      refine ⟨by simp [get, rawGet], ?_⟩
      intro k' v' h
      rcases List.mem_cons.1 (mem_of_rawGet h) with h | h
      · cases h; exact le_refl _
      · exact le_of_lt (hl.1 _ h)
    · rintro ⟨h1, h2⟩
      have h3 := h2 k1 v1 (by simp [get, rawGet])
      rcases List.mem_cons.1 (mem_of_rawGet h1) with h | h
      · cases h; exact ⟨rfl, rfl⟩
      · exact absurd (hl.1 _ h) (not_lt.2 h3)

theorem find?_reverse_eq_last? (m : OMap K V) (p : K → V → Bool) :
    m.entries.reverse.find? (fun e => p e.1 e.2) = (m.filter p).last? := by
  unfold last? filter
  rw [← List.head?_filter, List.filter_reverse, List.head?_reverse]

theorem contains_iff {m : OMap K V} {k : K} : m.contains k = true ↔ ∃ v, m.get k = some v := by
  simp [contains, Option.isSome_iff_exists]

theorem contains_eq_false {m : OMap K V} {k : K} : m.contains k = false ↔ m.get k = none := by
  simp [contains]

end OMap

/-- `BTreeSet<K>` / `HashSet<K>` -/
abbrev OSet (K : Type) [LinearOrder K] := OMap K Unit

namespace OSet
variable {K : Type} [LinearOrder K]
/-- `set.contains(&k)` -/
def mem (s : OSet K) (k : K) : Bool := OMap.contains s k
/-- `set.insert(k)` -/
def add (s : OSet K) (k : K) : OSet K := OMap.insert s k ()
/-- `set.remove(&k)` -/
def remove (s : OSet K) (k : K) : OSet K := OMap.erase s k
/-- elements, ascending -/
def toList (s : OSet K) : List K := OMap.keys s
/-- `iter.collect::<BTreeSet<_>>()` -/
def ofList (l : List K) : OSet K := l.foldl add OMap.empty

theorem mem_iff {s : OSet K} {k : K} : s.mem k = true ↔ s.get k = some () := by
  unfold mem OMap.contains; cases h : OMap.get s k <;> simp

theorem mem_toList {s : OSet K} {k : K} : k ∈ s.toList ↔ s.mem k = true := by
  rw [mem_iff]; unfold toList; rw [OMap.mem_keys]
  exact ⟨fun ⟨_, h⟩ => h, fun h => ⟨_, h⟩⟩

theorem mem_add {s : OSet K} {k k' : K} : (s.add k).mem k' = (decide (k' = k) || s.mem k') := by
  unfold mem add OMap.contains; rw [OMap.get_insert]; by_cases h : k' = k <;> simp [h]

theorem mem_remove {s : OSet K} {k k' : K} : (s.remove k).mem k' = (decide (k' ≠ k) && s.mem k') := by
  unfold mem remove OMap.contains; rw [OMap.get_erase]; by_cases h : k' = k <;> simp [h]

@[simp] theorem mem_empty {k : K} : OSet.mem (OMap.empty : OSet K) k = false := rfl

theorem ext_mem {a b : OSet K} (h : ∀ k, a.mem k = b.mem k) : a = b := by
  apply OMap.ext_get; intro k
  have := h k
  unfold mem OMap.contains at this
  cases h1 : a.get k <;> cases h2 : b.get k <;> simp_all

theorem get_eq_ite {s : OSet K} {k : K} : s.get k = if s.mem k then some () else none := by
  unfold mem OMap.contains; cases s.get k <;> simp

theorem toList_nodup (s : OSet K) : s.toList.Nodup := OMap.keys_nodup s
theorem toList_sorted (s : OSet K) : s.toList.Pairwise (· < ·) := OMap.keys_sorted s

theorem mem_foldl_add (l : List K) (s : OSet K) (k : K) :
    (l.foldl add s).mem k = (decide (k ∈ l) || s.mem k) := by
  induction l generalizing s with
  | nil => simp
  | cons a l ih =>
    simp only [List.foldl_cons, ih, mem_add, List.mem_cons]
    by_cases h1 : k = a <;> by_cases h2 : k ∈ l <;> simp [h1, h2]

theorem mem_ofList {l : List K} {k : K} : (ofList l).mem k = decide (k ∈ l) := by
  unfold ofList; rw [mem_foldl_add]; simp

end OSet

/-- Iteration order of a `HashMap`/`HashSet`: an arbitrary permutation of the elements.  Theorems are
stated for every `HashOrder`; the `no_std` build of bdk_chain (where `HashMap` is `BTreeMap`,
bdk_chain/src/lib.rs:57-90) is the identity order. -/
structure HashOrder (α : Type) where
  perm : List α → List α
  isPerm : ∀ l, (perm l).Perm l

/-- ascending order -/
def HashOrder.id (α : Type) : HashOrder α := ⟨fun l => l, fun _ => List.Perm.refl _⟩
/-- descending order (a second concrete order used in examples) -/
def HashOrder.rev (α : Type) : HashOrder α := ⟨fun l => l.reverse, fun l => List.reverse_perm l⟩
instance {α : Type} : Inhabited (HashOrder α) := ⟨HashOrder.id α⟩

theorem HashOrder.mem {α : Type} (o : HashOrder α) {l : List α} {a : α} : a ∈ o.perm l ↔ a ∈ l :=
  (o.isPerm l).mem_iff

theorem HashOrder.nodup {α : Type} (o : HashOrder α) {l : List α} : (o.perm l).Nodup ↔ l.Nodup :=
  (o.isPerm l).nodup_iff

end Verif
