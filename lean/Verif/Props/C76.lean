import Verif.Store.LoopPeelModel
import Mathlib.Data.List.Basic
import Mathlib.Tactic.Linarith
import Mathlib.Tactic.Ring

/-!
# C76: the loop peeler visits the elements from the counter to the end, each one once

It does if the next multiple of the arity isn't beyond the end. Otherwise elements behind the end are processed.
-/

namespace LGD.C76
open LGD.LoopPeel

/-- `x`, ..., `x + n - 1` -/
def ints (x : Int) (n : Nat) : List Int := (List.range n).map fun i : Nat => x + i

theorem ints_append (x : Int) (m n : Nat) : ints x m ++ ints (x + m) n = ints x (m + n) := by
  unfold ints
  rw [List.range_add, List.map_append, List.map_map]
  congr 1
  refine List.map_congr_left fun i _ => ?_
  simp only [Function.comp]; push_cast; ring

theorem mem_ints {x y : Int} {n : Nat} : y ∈ ints x n ↔ x ≤ y ∧ y < x + n := by
  unfold ints
  simp only [List.mem_map, List.mem_range]
  constructor
  · rintro ⟨i, h1, h2⟩; omega
  · rintro ⟨h1, h2⟩; exact ⟨(y - x).toNat, by omega, by omega⟩

theorem visited_append (a b : List Pass) : visited (a ++ b) = visited a ++ visited b := by unfold visited; rw [List.flatMap_append]

/-- the loop, if the counter hits the end exactly or is not less than it from the start -/
theorem body_eq {A : Nat} (hA : 0 < A) {stop : Int} : ∀ (m : Nat) (x : Int) (fuel : Nat), m < fuel → (stop = x + m * A ∨ m = 0 ∧ stop ≤ x) →
    ∃ ps, body A stop fuel x = some (ps, x + m * A) ∧ visited ps = ints x (m * A) ∧ ∀ p ∈ ps, p.arity = A ∧ ∃ k : Nat, p.index = x + k * A
  | 0, x, fuel, hf, hs => by
    obtain ⟨f, rfl⟩ : ∃ f, fuel = f + 1 := ⟨fuel - 1, by omega⟩
    refine ⟨[], ?_, by simp [visited, ints], by simp⟩
    unfold body
    rw [if_neg (by rcases hs with hs | ⟨_, hs⟩ <;> [(rw [hs]; simp); omega])]
    simp
  | m + 1, x, fuel, hf, hs => by
    obtain ⟨f, rfl⟩ : ∃ f, fuel = f + 1 := ⟨fuel - 1, by omega⟩
    have hs : stop = x + (m + 1 : Nat) * A := by rcases hs with hs | ⟨h, _⟩ <;> [exact hs; omega]
    have hs' : stop = x + A + m * A := by rw [hs]; push_cast; ring
    have hmA : (0 : Int) ≤ m * A := by exact_mod_cast Nat.zero_le (m * A)
    obtain ⟨ps, h1, h2, h3⟩ := body_eq hA m (x + A) f (by omega) (.inl hs')
    refine ⟨⟨x, A⟩ :: ps, ?_, ?_, ?_⟩
    · unfold body
      rw [if_pos (by omega), h1]
      simp only [Option.map_some, Option.some.injEq, Prod.mk.injEq, true_and]
      push_cast; ring
    · have : visited (⟨x, A⟩ :: ps) = ints x A ++ visited ps := by unfold visited; rw [List.flatMap_cons]; rfl
      rw [this, h2, ints_append]; congr 1; ring
    · intro p hp
      rcases List.mem_cons.1 hp with rfl | hp
      · exact ⟨rfl, 0, by simp⟩
      · obtain ⟨h4, k, h5⟩ := h3 p hp
        exact ⟨h4, k + 1, by rw [h5]; push_cast; ring⟩

theorem nextStop_spec {A : Nat} (hA : 0 < A) (x : Int) : x ≤ nextStop A x ∧ (A : Int) ∣ nextStop A x := by
  have h1 := Int.tmod_add_mul_tdiv x A
  have hA' : (0 : Int) < A := by exact_mod_cast hA
  have h2 := Int.tmod_lt_of_pos x hA'
  unfold nextStop
  dsimp only
  split
  · refine ⟨by omega, ⟨x.tdiv A + 1, ?_⟩⟩
    rw [mul_add, mul_one]; omega
  · rename_i h
    refine ⟨le_refl _, ⟨x.tdiv A, ?_⟩⟩
    omega

theorem lastStop_dvd (A : Nat) (e : Int) : (A : Int) ∣ lastStop A e := by
  have h1 := Int.tmod_add_mul_tdiv e A
  exact ⟨e.tdiv A, by unfold lastStop; omega⟩

/-- **C76.** All arities, counters and ends: the elements from the counter up to `c` are processed in ascending order, each one once; `c` is the largest of the three ends and the value of the counter
afterwards. Vectorized passes are aligned. -/
theorem visits {A : Nat} (hA : 0 < A) (x e : Int) : ∃ ps, peel A x e = some (ps, max (nextStop A x) (max (lastStop A e) e)) ∧ visited ps = ints x (max (nextStop A x) (max (lastStop A e) e) - x).toNat ∧
    ∀ p ∈ ps, p.arity = 1 ∨ p.arity = A ∧ (A : Int) ∣ p.index := by
  obtain ⟨hn, q, hq⟩ := nextStop_spec hA x
  obtain ⟨r, hr⟩ := lastStop_dvd A e
  have hA' : (0 : Int) < A := by exact_mod_cast hA
  obtain ⟨as, a1, a2, a3⟩ := body_eq (A := 1) Nat.one_pos (stop := nextStop A x) (nextStop A x - x).toNat x ((nextStop A x - x).toNat + 1) (by omega) (.inl (by push_cast; omega))
  have hx : x + ((nextStop A x - x).toNat : Int) * (1 : Nat) = nextStop A x := by push_cast; omega
  rw [hx] at a1
  -- passes of the second loop
  obtain ⟨m, hm1, hm2, hm3⟩ : ∃ m : Nat, m < (lastStop A e - nextStop A x).toNat + 1 ∧ (lastStop A e = nextStop A x + m * A ∨ m = 0 ∧ lastStop A e ≤ nextStop A x) ∧
      nextStop A x + m * A = max (nextStop A x) (lastStop A e) := by
    by_cases h : q ≤ r
    · have hm : (A : Int) * q ≤ A * r := mul_le_mul_of_nonneg_left h hA'.le
      have hmul : (((r - q).toNat : Nat) : Int) * A = A * r - A * q := by rw [Int.toNat_of_nonneg (by omega)]; ring
      refine ⟨(r - q).toNat, ?_, .inl (by rw [hmul]; omega), by rw [hmul]; omega⟩
      have : (r - q) * 1 ≤ (r - q) * A := mul_le_mul_of_nonneg_left (by omega) (by omega)
      have h3 : (r - q) * (A : Int) = A * r - A * q := by ring
      omega
    · have hm : (A : Int) * r ≤ A * q := mul_le_mul_of_nonneg_left (by omega) hA'.le
      exact ⟨0, by omega, .inr ⟨rfl, by omega⟩, by simp; omega⟩
  obtain ⟨bs, b1, b2, b3⟩ := body_eq hA m (nextStop A x) _ hm1 hm2
  rw [hm3] at b1
  obtain ⟨cs, c1, c2, _⟩ := body_eq (A := 1) Nat.one_pos (stop := e) (e - max (nextStop A x) (lastStop A e)).toNat (max (nextStop A x) (lastStop A e)) ((e - max (nextStop A x) (lastStop A e)).toNat + 1) (by omega)
    (by by_cases h : max (nextStop A x) (lastStop A e) ≤ e <;> [(left; push_cast; omega); (right; omega)])
  have c3 : ∀ p ∈ cs, p.arity = 1 := by
    obtain ⟨_, d1, _, d3⟩ := body_eq (A := 1) Nat.one_pos (stop := e) (e - max (nextStop A x) (lastStop A e)).toNat (max (nextStop A x) (lastStop A e)) ((e - max (nextStop A x) (lastStop A e)).toNat + 1) (by omega)
      (by by_cases h : max (nextStop A x) (lastStop A e) ≤ e <;> [(left; push_cast; omega); (right; omega)])
    rw [c1] at d1
    simp only [Option.some.injEq, Prod.mk.injEq] at d1
    rw [d1.1]; exact fun p hp => (d3 p hp).1
  refine ⟨as ++ bs ++ cs, ?_, ?_, ?_⟩
  · unfold peel
    dsimp only
    rw [a1, Option.bind_some, b1, Option.bind_some, c1, Option.map_some]
    congr 2
    push_cast; omega
  · rw [visited_append, visited_append, a2, b2, c2]
    have h1 : nextStop A x = x + (((nextStop A x - x).toNat * 1 : Nat) : Int) := by push_cast; omega
    have h2 : max (nextStop A x) (lastStop A e) = x + (((nextStop A x - x).toNat * 1 + m * A : Nat) : Int) := by rw [← hm3]; push_cast; omega
    have h3 : ints (nextStop A x) (m * A) = ints (x + (((nextStop A x - x).toNat * 1 : Nat) : Int)) (m * A) := by rw [← h1]
    have h4 : ∀ k, ints (max (nextStop A x) (lastStop A e)) k = ints (x + (((nextStop A x - x).toNat * 1 + m * A : Nat) : Int)) k := fun k => by rw [← h2]
    rw [h3, ints_append, h4, ints_append]
    congr 1
    have h5 : ((((nextStop A x - x).toNat * 1 + m * A : Nat)) : Int) = max (nextStop A x) (lastStop A e) - x := by omega
    omega
  · intro p hp
    simp only [List.mem_append] at hp
    rcases hp with (hp | hp) | hp
    · exact .inl (a3 p hp).1
    · obtain ⟨h1, k, h2⟩ := b3 p hp
      exact .inr ⟨h1, ⟨q + k, by rw [h2, hq]; ring⟩⟩
    · exact .inl (c3 p hp)

theorem lastStop_le {A : Nat} {e : Int} (he : 0 ≤ e) : lastStop A e ≤ e := by
  have := Int.tmod_nonneg (A : Int) he
  unfold lastStop; omega

/-- exactly the elements from the counter to the end, if the next multiple of the arity isn't beyond the end -/
theorem exact {A : Nat} (hA : 0 < A) {x e : Int} (he : 0 ≤ e) (h : nextStop A x ≤ e) : ∃ ps, peel A x e = some (ps, e) ∧ visited ps = ints x (e - x).toNat ∧ ∀ p ∈ ps, p.arity = 1 ∨ p.arity = A ∧ (A : Int) ∣ p.index := by
  obtain ⟨ps, h1, h2, h3⟩ := visits hA x e
  have := lastStop_le (A := A) he
  have hm : max (nextStop A x) (max (lastStop A e) e) = e := by omega
  rw [hm] at h1 h2
  exact ⟨ps, h1, h2, h3⟩

/-- the next multiple of the arity for counters which aren't negative: less than `A` elements ahead -/
theorem nextStop_near {A : Nat} (hA : 0 < A) {x : Int} (hx : 0 ≤ x) : nextStop A x < x + A := by
  have hA' : (0 : Int) < A := by exact_mod_cast hA
  have := Int.tmod_nonneg (A : Int) hx
  unfold nextStop
  dsimp only
  split <;> omega

/-- ranges of at least `A` elements are processed exactly -/
theorem exact_long {A : Nat} (hA : 0 < A) {x e : Int} (hx : 0 ≤ x) (h : x + A ≤ e + 1) : ∃ ps, peel A x e = some (ps, e) ∧ visited ps = ints x (e - x).toNat := by
  have h1 := nextStop_near hA hx
  obtain ⟨ps, h2, h3, _⟩ := exact hA (x := x) (e := e) (by omega) (by omega)
  exact ⟨ps, h2, h3⟩

/-- **negation**: if the end comes before the next multiple of the arity, then the element behind the end is processed too (and all up to the multiple) -/
theorem overshoot {A : Nat} (hA : 0 < A) {x e : Int} (hxe : x ≤ e) (h : e < nextStop A x) : ∃ ps c, peel A x e = some (ps, c) ∧ e < c ∧ e ∈ visited ps := by
  obtain ⟨ps, h1, h2, _⟩ := visits hA x e
  exact ⟨ps, _, h1, by omega, by rw [h2, mem_ints]; omega⟩

/-- **negation**: negative ends which aren't multiples of the arity are exceeded -/
theorem overshoot_negative {A : Nat} (hA : 0 < A) {x e : Int} (hxe : x ≤ e) (he : e < 0) (h : ¬(A : Int) ∣ e) : ∃ ps c, peel A x e = some (ps, c) ∧ e < c ∧ e ∈ visited ps := by
  obtain ⟨ps, h1, h2, _⟩ := visits hA x e
  have hlt : e < lastStop A e := by
    have h3 : e.tmod A ≤ 0 := by
      have := Int.tmod_nonneg (A : Int) (show 0 ≤ -e by omega)
      rw [Int.neg_tmod] at this; omega
    have h4 : e.tmod A ≠ 0 := fun h0 => h (Int.dvd_of_tmod_eq_zero h0)
    unfold lastStop; omega
  exact ⟨ps, _, h1, by omega, by rw [h2, mem_ints]; omega⟩

/-- all pairs of particles: each particle `i` is paired exactly with those from `i + 1` to `n - 1`, for all `i`, if and only if the number of particles is a multiple of the arity -/
theorem pairs {A : Nat} (hA : 0 < A) (n : Nat) (hn : 0 < n) : (∀ i < n, partners A n i = some (ints (i + 1) (n - (i + 1)))) ↔ A ∣ n := by
  have hA' : (0 : Int) < A := by exact_mod_cast hA
  constructor
  · intro h
    by_contra hd
    have h1 := h (n - 1) (by omega)
    have hc : (((n - 1 : Nat) : Int) + 1) = n := by omega
    have hd' : ¬(A : Int) ∣ n := fun h => hd (by exact_mod_cast h)
    obtain ⟨s1, s2⟩ := nextStop_spec hA (n : Int)
    have hlt : (n : Int) < nextStop A n := lt_of_le_of_ne s1 fun h => hd' (by rw [h]; exact s2)
    obtain ⟨ps, c, h2, _, h3⟩ := overshoot hA (x := n) (e := n) (le_refl _) hlt
    unfold partners at h1
    rw [hc, h2] at h1
    simp only [Option.map_some, Option.some.injEq] at h1
    rw [h1, mem_ints] at h3
    omega
  · rintro ⟨k, hk⟩ i hi
    have hk' : (n : Int) = A * k := by exact_mod_cast hk
    obtain ⟨s1, q, hq⟩ := nextStop_spec hA ((i : Int) + 1)
    have hnear := nextStop_near hA (x := (i : Int) + 1) (by omega)
    have hle : nextStop A ((i : Int) + 1) ≤ n := by
      by_contra hgt
      have hkq : (k : Int) < q := by
        by_contra hge
        have : (A : Int) * q ≤ A * k := mul_le_mul_of_nonneg_left (by omega) hA'.le
        omega
      have : (A : Int) * (k + 1) ≤ A * q := mul_le_mul_of_nonneg_left (by omega) hA'.le
      rw [mul_add, mul_one] at this
      omega
    obtain ⟨ps, h1, h2, _⟩ := exact hA (x := (i : Int) + 1) (e := n) (by omega) hle
    unfold partners
    rw [h1]
    simp only [Option.map_some, h2]
    congr 2; omega

/-! ## Examples -/

/-- the first unit test, reduced: from 3 to 13 with arity 4 -/
example : peel 4 3 13 = some ([⟨3, 1⟩, ⟨4, 4⟩, ⟨8, 4⟩, ⟨12, 1⟩], 13) := by decide

/-- from 1 to 3 with arity 4: element 3 is processed although the end is 3 -/
example : peel 4 1 3 = some ([⟨1, 1⟩, ⟨2, 1⟩, ⟨3, 1⟩], 4) := by decide

example : peel 4 (-3) (-1) = some ([⟨-3, 1⟩, ⟨-2, 1⟩, ⟨-1, 1⟩, ⟨0, 1⟩, ⟨1, 1⟩, ⟨2, 1⟩, ⟨3, 1⟩], 4) := by decide

example : peel 4 (-4) (-1) = some ([⟨-4, 4⟩], 0) := by decide

/-- ten particles: particle 8 is paired with 9, 10 and 11 -/
example : partners 4 10 8 = some [9, 10, 11] := by decide

example : partners 4 12 8 = some [9, 10, 11] := by decide

end LGD.C76
