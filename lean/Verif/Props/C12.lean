import Verif.Geom.Box
import Verif.Props.C05

/-!
# C12 – iteration over a `CoordBox`
-/

namespace LGD.C12
open LGD.C01 LGD.C05

/-- Spec: coordinates of a box. -/
def InBox (n : Nat) (b : Box) (c : Crd) : Prop := ∀ k, k ≤ n → b.origin k ≤ c k ∧ c k < b.origin k + b.dims k

/-- Spec: number of coordinates. -/
def Volume : Nat → Crd → Int
  | 0, d => d 0
  | n + 1, d => Volume n d * d (n + 1)

theorem volume_eq (n : Nat) (d : Crd) : Volume n d = crdProd n d := by
  induction n with
  | zero => rfl
  | succ n ih => rw [Volume, crdProd, ih]

/-- Coordinate iteration: if the last extent is non-negative and all others are positive, the loop from `begin()` to `end()`
terminates, visits exactly the coordinates of the box in strict storage order (hence each once), and their number is
`size()`. -/
theorem coords_partial (n : Nat) (b : Box) (hd : ∀ k, k < n → 0 < b.dims k) (hl : 0 ≤ b.dims n) (fuel : Nat)
    (hf : (Volume n b.dims).toNat < fuel) :
    ∃ l, boxCoords n b fuel = some l ∧ (∀ c, (∃ c' ∈ l, ∀ k, k ≤ n → c' k = c k) ↔ InBox n b c) ∧ l.Pairwise (Before n) ∧
      (l.length : Int) = Volume n b.dims ∧ boxSize n b = Volume n b.dims := by
  rw [volume_eq, ← vol_prod] at hf
  have h := boxCoords_spec n b.origin b.dims (fun k => b.origin k + b.dims k) (upd b.origin n (b.origin n + b.dims n))
    (fun _ _ => rfl) hd hl (fun j _ => by
      unfold upd
      by_cases e : j = n
      · simp [e]
      · simp [e]) fuel hf
  refine ⟨_, h, fun c => ?_, boxAt_sorted n b.origin b.dims hd _, ?_, by rw [volume_eq]; rfl⟩
  · rw [show InBox n b c ↔ _ from (boxAt_mem n b.origin b.dims hd c).symm]
    constructor
    · rintro ⟨c', h1, h2⟩
      obtain ⟨i, hi, rfl⟩ := List.mem_map.1 h1
      exact ⟨i, List.mem_range.1 hi, h2⟩
    · rintro ⟨i, hi, h2⟩
      exact ⟨_, List.mem_map.2 ⟨i, List.mem_range.2 hi, rfl⟩, h2⟩
  · rw [List.length_map, List.length_range, volume_eq, ← vol_prod]
    have := vol_nonneg b.dims n 0 (fun j _ h => by
      by_cases e : j = n
      · subst e; exact hl
      · have := hd j (by omega); omega)
    omega

/-- The full statement fails: a zero extent on an axis other than the last one, with a non-zero last extent, makes the
iteration run forever (no number of iterations suffices) although the box is empty. -/
theorem coords_zero_extent_hangs (n : Nat) (b : Box) (k : Nat) (hk : k < n) (hz : b.dims k = 0) (hl : b.dims n ≠ 0) (fuel : Nat) :
    boxCoords n b fuel = none := by
  refine boxLoop_hang n b.origin _ _ k hk (by simp [hz]) ?_ fuel b.origin rfl (fun _ _ => Int.le_refl _)
  simp only [upd, if_true]; omega

/-- extents of the rows: one streak per row -/
def rows (n : Nat) (b : Box) : Crd := if n = 0 then (if 0 < b.dims 0 then fun _ => 1 else fun _ => 0) else upd b.dims 0 1

theorem rows_zero {n : Nat} (b : Box) (h : n ≠ 0) : rows n b 0 = 1 := by simp [rows, h, upd]
theorem rows_pos {n k : Nat} (b : Box) (h : n ≠ 0) (hk : k ≠ 0) : rows n b k = b.dims k := by simp [rows, h, hk, upd]
theorem rows_1d (b : Box) (k : Nat) : rows 0 b k = if 0 < b.dims 0 then 1 else 0 := by simp only [rows, if_true]; split <;> rfl

theorem streaks_list (n : Nat) (b : Box) (hd : ∀ k, 1 ≤ k → k < n → 0 < b.dims k) (hl : 1 ≤ n → 0 ≤ b.dims n) (fuel : Nat)
    (hf : (Volume n (rows n b)).toNat < fuel) :
    boxStreaks n b fuel = some ((List.range (Volume n (rows n b)).toNat).map (fun i : Nat =>
      { origin := boxAt n b.origin (rows n b) (i : Int), endX := b.origin 0 + b.dims 0 })) := by
  rw [volume_eq, ← vol_prod] at hf ⊢
  unfold boxStreaks
  have h := boxCoords_spec n b.origin (rows n b) (upd (fun k => b.origin k + b.dims k) 0 (b.origin 0 + 1)) (boxEndPos n b)
    (fun j hj => ?_) (fun j hj => ?_) ?_ (fun j hj => ?_) fuel hf
  · rw [h, Option.map_some, List.map_map]; rfl
  · by_cases e : j = 0
    · subst e; rw [rows_zero b (by omega)]; simp [upd]
    · rw [rows_pos b (by omega) e]; simp [upd, e]
  · by_cases e : j = 0
    · subst e; rw [rows_zero b (by omega)]; decide
    · rw [rows_pos b (by omega) e]; exact hd j (by omega) hj
  · by_cases e : n = 0
    · subst e; rw [rows_1d]; split <;> decide
    · rw [rows_pos b e e]; exact hl (by omega)
  · unfold boxEndPos
    by_cases h0 : n = 0
    · subst h0
      have e : j = 0 := by omega
      subst e
      rw [rows_1d]
      simp only [if_true]
      split <;> simp [upd]
    · rw [if_neg h0, rows_pos b h0 h0]
      simp only [upd]

/-- Streak iteration: terminates if the extents of the axes strictly between the first and the last are positive (the others
may be zero), yields full-width streaks in strict storage order, and these cover exactly the box. -/
theorem streaks_partial (n : Nat) (b : Box) (h0 : 0 ≤ b.dims 0) (hd : ∀ k, 1 ≤ k → k < n → 0 < b.dims k)
    (hl : 0 ≤ b.dims n) (fuel : Nat) (hf : (Volume n (rows n b)).toNat < fuel) :
    ∃ l, boxStreaks n b fuel = some l ∧ (∀ c, (∃ s ∈ l, InStreak n s c) ↔ InBox n b c) ∧
      (∀ s ∈ l, s.origin 0 = b.origin 0 ∧ s.endX = b.origin 0 + b.dims 0) ∧
      (l.map (·.origin)).Pairwise (Before n) ∧ (l.length : Int) = Volume n (rows n b) := by
  have hr : ∀ j, j < n → 0 < rows n b j := by
    intro j hj
    by_cases e : j = 0
    · subst e; rw [rows_zero b (by omega)]; decide
    · rw [rows_pos b (by omega) e]; exact hd j (by omega) hj
  have hx : ∀ i : Nat, i < (Volume n (rows n b)).toNat → boxAt n b.origin (rows n b) (i : Int) 0 = b.origin 0 := by
    intro i hi
    have h := ((boxAt_mem n b.origin (rows n b) hr (boxAt n b.origin (rows n b) (i : Int))).1
      ⟨i, by rw [vol_prod, ← volume_eq]; exact hi, fun _ _ => rfl⟩) 0 (by omega)
    have hle : rows n b 0 ≤ 1 := by
      by_cases e : n = 0
      · subst e; rw [rows_1d]; split <;> decide
      · rw [rows_zero b e]
    omega
  refine ⟨_, streaks_list n b hd (fun _ => hl) fuel hf, fun c => ?_, fun s hs => ?_, ?_, ?_⟩
  · constructor
    · rintro ⟨s, h1, h2, h3, h4⟩
      obtain ⟨i, hi, rfl⟩ := List.mem_map.1 h1
      have hi := List.mem_range.1 hi
      simp only at h2 h3 h4
      rw [hx i hi] at h2
      have h := ((boxAt_mem n b.origin (rows n b) hr (boxAt n b.origin (rows n b) (i : Int))).1
        ⟨i, by rw [vol_prod, ← volume_eq]; exact hi, fun _ _ => rfl⟩)
      intro k hk
      by_cases e : k = 0
      · subst e; exact ⟨h2, h3⟩
      · have := h k hk
        rw [h4 k (by omega) hk]
        have : rows n b k = b.dims k := rows_pos b (by omega) e
        omega
    · intro h
      have hb0 := h 0 (by omega)
      obtain ⟨i, hi, h2⟩ := (boxAt_mem n b.origin (rows n b) hr (upd c 0 (b.origin 0))).2 (fun j hj => by
        by_cases e : j = 0
        · subst e
          by_cases e0 : n = 0
          · subst e0; rw [rows_1d, if_pos (by omega)]; simp [upd]
          · rw [rows_zero b e0]; simp [upd]
        · rw [rows_pos b (by omega) e]
          simp only [upd, if_neg e]
          exact h j hj)
      rw [vol_prod, ← volume_eq] at hi
      refine ⟨_, List.mem_map.2 ⟨i, List.mem_range.2 hi, rfl⟩, ?_, hb0.2, fun k h1 hk => ?_⟩
      · simp only [hx i hi]; exact hb0.1
      · simp only
        rw [h2 k hk]; unfold upd; rw [if_neg (by omega)]
  · obtain ⟨i, hi, rfl⟩ := List.mem_map.1 hs
    exact ⟨hx i (List.mem_range.1 hi), rfl⟩
  · rw [List.map_map]
    exact boxAt_sorted n b.origin (rows n b) hr _
  · rw [List.length_map, List.length_range]
    have := vol_nonneg (rows n b) n 0 (fun j _ h => by
      by_cases e : j = n
      · subst e
        by_cases e0 : j = 0
        · subst e0; rw [rows_1d]; split <;> decide
        · rw [rows_pos b e0 e0]; exact hl
      · have := hr j (by omega); omega)
    rw [vol_prod, ← volume_eq] at this
    omega

/-- Streak iteration hangs on 3D boxes (or higher) with a zero extent on an inner axis. -/
theorem streaks_zero_extent_hangs (n : Nat) (b : Box) (k : Nat) (h1 : 1 ≤ k) (hk : k < n) (hz : b.dims k = 0)
    (hl : b.dims n ≠ 0) (fuel : Nat) : boxStreaks n b fuel = none := by
  unfold boxStreaks
  rw [boxLoop_hang n b.origin _ _ k hk (by unfold upd; rw [if_neg (by omega)]; simp [hz]) ?_ fuel b.origin rfl (fun _ _ => Int.le_refl _)]
  · rfl
  · unfold boxEndPos upd; rw [if_neg (by omega)]; simp only [if_true]; omega

theorem boxIn_iff (n : Nat) (b : Box) (c : Crd) : boxIn n b c = true ↔ InBox n b c := by
  unfold boxIn outOfCube InBox
  simp only [Bool.not_eq_true', List.any_eq_false, List.mem_range, Bool.or_eq_true, decide_eq_true_eq]
  constructor
  · intro h k hk; have := h k (by omega); omega
  · intro h k hk; have := h k (by omega); omega

/-- `inBounds(Coord)`, `inBounds(Streak)` and `intersects` decide membership, containment and intersection. The streak must
not be empty, the boxes arbitrary. -/
theorem bounds_checks (n : Nat) (a b : Box) :
    (∀ c, boxIn n b c = true ↔ InBox n b c) ∧
      (∀ s, s.origin 0 < s.endX → (boxInStreak n b s = true ↔ ∀ c, InStreak n s c → InBox n b c)) ∧
      (boxIntersects n a b = true ↔ ∃ c, InBox n a c ∧ InBox n b c) := by
  refine ⟨boxIn_iff n b, fun s hs => ?_, ?_⟩
  · have hb : boxInStreak n b s = true ↔ InBox n b s.origin ∧ s.endX ≤ b.origin 0 + b.dims 0 := by
      rw [← boxIn_iff]; unfold boxInStreak boxIn; simp
    rw [hb]
    constructor
    · rintro ⟨h1, h2⟩ c ⟨c1, c2, c3⟩ k hk
      by_cases e : k = 0
      · subst e; have := h1 0 (by omega); omega
      · rw [c3 k (by omega) hk]; exact h1 k hk
    · intro h
      refine ⟨h s.origin ⟨Int.le_refl _, hs, fun _ _ _ => rfl⟩, ?_⟩
      have := h (upd s.origin 0 (s.endX - 1)) ⟨by simp [upd]; omega, by simp [upd], fun k h1 _ => by
        unfold upd; rw [if_neg (by omega)]⟩ 0 (by omega)
      simp [upd] at this
      omega
  · unfold boxIntersects
    simp only [Bool.and_eq_true, boxIn_iff]
    constructor
    · intro h; exact ⟨_, h⟩
    · rintro ⟨c, h1, h2⟩
      constructor
      · intro k hk
        have := h1 k hk
        have := h2 k hk
        simp only; omega
      · intro k hk
        have := h1 k hk
        have := h2 k hk
        simp only; omega

/-! non-vacuity -/

def bx (x y z w h d : Int) : Box :=
  { origin := fun k => if k = 0 then x else if k = 1 then y else z, dims := fun k => if k = 0 then w else if k = 1 then h else d }

example : (boxCoords 1 (bx 5 (-1) 0 3 2 0) 7).map (List.map (fun c => (c 0, c 1))) =
    some [(5, -1), (6, -1), (7, -1), (5, 0), (6, 0), (7, 0)] := by decide
example : (boxStreaks 2 (bx 5 (-1) 7 3 2 2) 7).map (List.map (fun s => (s.origin 0, s.origin 1, s.origin 2, s.endX))) =
    some [(5, -1, 7, 8), (5, 0, 7, 8), (5, -1, 8, 8), (5, 0, 8, 8)] := by decide
example : (boxStreaks 0 (bx 5 0 0 3 0 0) 2).map (List.map (fun s => (s.origin 0, s.endX))) = some [(5, 8)] := by decide
example : ∃ b : Box, b.dims 0 = 0 ∧ 0 < 1 ∧ b.dims 1 ≠ 0 ∧ boxCoords 1 b 50 = none :=
  ⟨bx 0 0 0 0 3 0, rfl, by omega, by decide, coords_zero_extent_hangs 1 _ 0 (by omega) rfl (by decide) _⟩
example : boxIntersects 1 (bx 0 0 0 3 3 0) (bx 2 2 0 5 5 0) = true ∧ boxIntersects 1 (bx 0 0 0 3 3 0) (bx 3 2 0 5 5 0) = false := by
  decide

end LGD.C12
