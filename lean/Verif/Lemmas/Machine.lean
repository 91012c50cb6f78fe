import Verif.Model.Machine
import Mathlib.Tactic.Linarith
import Mathlib.Tactic.Ring
import Mathlib.Algebra.Ring.Divisibility.Basic

/-! # Facts about machine arithmetic (Model/Machine) -/

namespace Verif.Build

theorem unsigned_fits {bits : Nat} {z : Int} (b : Build) (h0 : 0 ≤ z) (h1 : z < 2 ^ bits) :
    b.unsigned bits z = some z.toNat := by
  unfold unsigned; rw [if_pos ⟨h0, h1⟩]

theorem unsigned_add_fits {bits x y : Nat} (b : Build) (h : x + y < 2 ^ bits) :
    b.unsigned bits ((x : Int) + y) = some (x + y) := by
  rw [unsigned_fits b (by omega) (by exact_mod_cast h)]
  congr 1

theorem unsigned_add_debug {bits x y : Nat} :
    Build.debug.unsigned bits ((x : Int) + y) = if x + y < 2 ^ bits then some (x + y) else none := by
  by_cases h : x + y < 2 ^ bits
  · rw [unsigned_add_fits _ h, if_pos h]
  · rw [if_neg h]; unfold unsigned
    rw [if_neg]
    rintro ⟨-, h1⟩
    exact h (by exact_mod_cast h1)

theorem unsigned_add_release {bits x y : Nat} :
    Build.release.unsigned bits ((x : Int) + y) = some ((x + y) % 2 ^ bits) := by
  by_cases h : x + y < 2 ^ bits
  · rw [unsigned_add_fits _ h, Nat.mod_eq_of_lt h]
  · unfold unsigned
    rw [if_neg]
    · simp only [Option.some.injEq]
      have : ((x : Int) + y) % 2 ^ bits = (((x + y) % 2 ^ bits : Nat) : Int) := by push_cast; rfl
      rw [this, Int.toNat_natCast]
    · rintro ⟨-, h1⟩
      exact h (by exact_mod_cast h1)

theorem sumU_fits {bits : Nat} (b : Build) : ∀ (l : List Nat) (acc : Nat), acc + l.sum < 2 ^ bits →
    b.sumU bits acc l = some (acc + l.sum)
  | [], acc, _ => by simp [sumU]
  | x :: l, acc, h => by
    rw [List.sum_cons] at h
    rw [sumU, unsigned_add_fits b (by omega), Option.bind_some, sumU_fits b l _ (by omega), List.sum_cons]
    congr 1; omega

theorem sumU_debug {bits : Nat} : ∀ (l : List Nat) (acc : Nat), acc < 2 ^ bits →
    Build.debug.sumU bits acc l = if acc + l.sum < 2 ^ bits then some (acc + l.sum) else none
  | [], acc, h => by simp [sumU, h]
  | x :: l, acc, h => by
    rw [sumU, unsigned_add_debug, List.sum_cons]
    by_cases hx : acc + x < 2 ^ bits
    · rw [if_pos hx, Option.bind_some, sumU_debug l _ hx, Nat.add_assoc]
    · rw [if_neg hx, if_neg (by omega)]; rfl

theorem sumU_release {bits : Nat} : ∀ (l : List Nat) (acc : Nat), acc < 2 ^ bits →
    Build.release.sumU bits acc l = some ((acc + l.sum) % 2 ^ bits)
  | [], acc, h => by simp [sumU, Nat.mod_eq_of_lt h]
  | x :: l, acc, h => by
    rw [sumU, unsigned_add_release, Option.bind_some, sumU_release l _ (Nat.mod_lt _ (by positivity)), List.sum_cons]
    congr 1
    rw [Nat.mod_add_mod, Nat.add_assoc]

theorem i64_fits {z : Int} (b : Build) (h0 : -2 ^ 63 ≤ z) (h1 : z < 2 ^ 63) : b.i64 z = some z := by
  unfold i64; rw [if_pos ⟨h0, h1⟩]

theorem i64_spec {b : Build} {z n : Int} (h : b.i64 z = some n) : -2 ^ 63 ≤ n ∧ n < 2 ^ 63 ∧ (2 ^ 64 : Int) ∣ z - n := by
  unfold i64 at h
  by_cases hf : -2 ^ 63 ≤ z ∧ z < 2 ^ 63
  · rw [if_pos hf] at h; cases h; exact ⟨hf.1, hf.2, by simp⟩
  · rw [if_neg hf] at h
    cases b with
    | debug => cases h
    | release =>
      simp only [Option.some.injEq] at h
      subst h
      refine ⟨?_, ?_, ?_⟩
      · have := Int.le_bmod (x := z) (m := 2 ^ 64) (by norm_num)
        norm_num at this ⊢; omega
      · have := Int.bmod_lt (x := z) (m := 2 ^ 64) (by norm_num)
        norm_num at this ⊢; omega
      · have := Int.dvd_self_sub_bmod (x := z) (m := 2 ^ 64)
        exact_mod_cast this

theorem i64_release_ne (z : Int) : Build.release.i64 z ≠ none := by
  unfold i64; split <;> simp

theorem sumI_spec {b : Build} : ∀ (l : List Int) (acc n : Int), b.sumI acc l = some n → (2 ^ 64 : Int) ∣ acc + l.sum - n
  | [], acc, n, h => by cases h; simp
  | x :: l, acc, n, h => by
    rw [sumI] at h
    cases hx : b.i64 (acc + x) with
    | none => rw [hx] at h; cases h
    | some a =>
      rw [hx, Option.bind_some] at h
      have h1 := sumI_spec l a n h
      have h2 := (i64_spec hx).2.2
      rw [List.sum_cons]
      have := dvd_add h1 h2
      have e : a + l.sum - n + (acc + x - a) = acc + (x + l.sum) - n := by ring
      rwa [e] at this

theorem sumI_release_ne : ∀ (l : List Int) (acc : Int), Build.release.sumI acc l ≠ none
  | [], acc => by simp [sumI]
  | x :: l, acc => by
    rw [sumI]
    cases hx : Build.release.i64 (acc + x) with
    | none => exact absurd hx (i64_release_ne _)
    | some a => rw [Option.bind_some]; exact sumI_release_ne l a

/-- the sum of the absolute values -/
def absSum (l : List Int) : Int := (l.map (fun x => |x|)).sum

theorem absSum_nonneg : ∀ (l : List Int), 0 ≤ absSum l
  | [] => by simp [absSum]
  | x :: l => by
    have := absSum_nonneg l
    unfold absSum at this ⊢
    rw [List.map_cons, List.sum_cons]
    have := abs_nonneg x
    omega

theorem sumI_fits (b : Build) : ∀ (l : List Int) (acc : Int), |acc| + absSum l < 2 ^ 63 → b.sumI acc l = some (acc + l.sum)
  | [], acc, _ => by simp [sumI]
  | x :: l, acc, h => by
    have hs : absSum (x :: l) = |x| + absSum l := by unfold absSum; rw [List.map_cons, List.sum_cons]
    have hn := absSum_nonneg l
    rw [hs] at h
    have ht := abs_add_le acc x
    have hx : |acc + x| < 2 ^ 63 := by omega
    have hx' := abs_lt.1 hx
    rw [sumI, i64_fits b (by omega) hx'.2, Option.bind_some, sumI_fits b l _ (by omega), List.sum_cons]
    congr 1; ring

theorem sumOptI_spec {b : Build} : ∀ (l : List (Option Int)) (acc : Int) (r : Option Int), b.sumOptI acc l = some r →
    (r = none ↔ none ∈ l) ∧ ∀ n, r = some n → (2 ^ 64 : Int) ∣ acc + (l.filterMap id).sum - n
  | [], acc, r, h => by cases h; simp
  | none :: l, acc, r, h => by cases h; simp
  | some x :: l, acc, r, h => by
    rw [sumOptI] at h
    cases hx : b.i64 (acc + x) with
    | none => rw [hx] at h; cases h
    | some a =>
      rw [hx, Option.bind_some] at h
      obtain ⟨h1, h3⟩ := sumOptI_spec l a r h
      refine ⟨by rw [h1]; simp, fun n hn => ?_⟩
      have h2 := (i64_spec hx).2.2
      have := dvd_add (h3 n hn) h2
      rw [List.filterMap_cons_some (b := x) (by rfl), List.sum_cons]
      have e : a + (l.filterMap id).sum - n + (acc + x - a) = acc + (x + (l.filterMap id).sum) - n := by ring
      rwa [e] at this

theorem sumOptI_release_ne : ∀ (l : List (Option Int)) (acc : Int), Build.release.sumOptI acc l ≠ none
  | [], acc => by simp [sumOptI]
  | none :: l, acc => by simp [sumOptI]
  | some x :: l, acc => by
    rw [sumOptI]
    cases hx : Build.release.i64 (acc + x) with
    | none => exact absurd hx (i64_release_ne _)
    | some a => rw [Option.bind_some]; exact sumOptI_release_ne l a

theorem sumOptI_fits (b : Build) : ∀ (l : List (Option Int)) (acc : Int), |acc| + absSum (l.filterMap id) < 2 ^ 63 →
    b.sumOptI acc l = some (if none ∈ l then none else some (acc + (l.filterMap id).sum))
  | [], acc, _ => by simp [sumOptI]
  | none :: l, acc, h => by simp [sumOptI]
  | some x :: l, acc, h => by
    rw [List.filterMap_cons_some (b := x) (by rfl)] at h ⊢
    have hs : absSum (x :: l.filterMap id) = |x| + absSum (l.filterMap id) := by
      unfold absSum; rw [List.map_cons, List.sum_cons]
    have hn := absSum_nonneg (l.filterMap id)
    rw [hs] at h
    have ht := abs_add_le acc x
    have hx : |acc + x| < 2 ^ 63 := by omega
    have hx' := abs_lt.1 hx
    rw [sumOptI, i64_fits b (by omega) hx'.2, Option.bind_some, sumOptI_fits b l _ (by omega), List.sum_cons]
    have hm : none ∈ some x :: l ↔ none ∈ l := by simp
    by_cases hh : none ∈ l
    · rw [if_pos hh, if_pos (hm.2 hh)]
    · rw [if_neg hh, if_neg (fun hc => hh (hm.1 hc))]
      congr 2; ring

theorem asI64_dvd (v : Nat) : (2 ^ 64 : Int) ∣ (v : Int) - SpkIndex.asI64 v := by
  unfold SpkIndex.asI64
  by_cases h : v < 2 ^ 63
  · rw [if_pos h]; simp
  · rw [if_neg h]; exact ⟨1, by ring⟩

theorem asI64_small {v : Nat} (h : v < 2 ^ 63) : SpkIndex.asI64 v = v := by
  unfold SpkIndex.asI64; rw [if_pos h]

theorem sum_asI64_dvd : ∀ (l : List Nat), (2 ^ 64 : Int) ∣ (l.map (fun v : Nat => (v : Int))).sum - (l.map SpkIndex.asI64).sum
  | [] => by simp
  | v :: l => by
    rw [List.map_cons, List.map_cons, List.sum_cons, List.sum_cons]
    have := dvd_add (asI64_dvd v) (sum_asI64_dvd l)
    have e : (v : Int) - SpkIndex.asI64 v + ((l.map (fun v : Nat => (v : Int))).sum - (l.map SpkIndex.asI64).sum) =
      (v : Int) + (l.map (fun v : Nat => (v : Int))).sum - (SpkIndex.asI64 v + (l.map SpkIndex.asI64).sum) := by ring
    rwa [e] at this

theorem asI64_list_small : ∀ (l : List Nat), l.sum < 2 ^ 63 → l.map SpkIndex.asI64 = l.map (fun v : Nat => (v : Int)) ∧
    absSum (l.map SpkIndex.asI64) = l.sum
  | [], _ => by simp [absSum]
  | v :: l, h => by
    rw [List.sum_cons] at h
    obtain ⟨h1, h2⟩ := asI64_list_small l (by omega)
    have hv := asI64_small (v := v) (by omega)
    refine ⟨by rw [List.map_cons, List.map_cons, h1, hv], ?_⟩
    unfold absSum at h2 ⊢
    rw [List.map_cons, List.map_cons, List.sum_cons, h2, hv, List.sum_cons]
    push_cast
    rw [Nat.abs_cast]

theorem sum_cast : ∀ (l : List Nat), (l.map (fun v : Nat => (v : Int))).sum = ((l.sum : Nat) : Int)
  | [] => by simp
  | v :: l => by rw [List.map_cons, List.sum_cons, List.sum_cons, sum_cast l]; push_cast; rfl

theorem eq_of_dvd_range {e f : Int} (hd : (2 ^ 64 : Int) ∣ e - f) (h1 : -2 ^ 63 ≤ e ∧ e < 2 ^ 63) (h2 : -2 ^ 63 ≤ f ∧ f < 2 ^ 63) :
    f = e := by
  obtain ⟨k, hk⟩ := hd
  have : k = 0 := by omega
  subst this; omega

end Verif.Build
