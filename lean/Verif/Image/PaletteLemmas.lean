import Verif.Image.ImageModel
import Mathlib.Tactic.Linarith
import Mathlib.Tactic.Ring
import Mathlib.Tactic.Positivity
import Mathlib.Tactic.FieldSimp

/-!
# Colors and palettes
-/

namespace LGD.Image

/-- the channels are stored separately if they are bytes -/
theorem channels {r g b : Int} (hr : 0 ≤ r) (hr' : r ≤ 255) (hg : 0 ≤ g) (hg' : g ≤ 255) (hb : 0 ≤ b) (hb' : b ≤ 255) :
    (red (mkColor r g b) : Int) = r ∧ (green (mkColor r g b) : Int) = g ∧ (blue (mkColor r g b) : Int) = b := by
  unfold red green blue mkColor
  refine ⟨?_, ?_, ?_⟩ <;> omega

theorem toInt_byte {q : ℚ} (h0 : 0 ≤ q) (h1 : q ≤ 255) : 0 ≤ toInt q ∧ toInt q ≤ 255 ∧ toInt q = ⌊q⌋ := by
  unfold toInt
  rw [if_pos h0]
  refine ⟨Int.floor_nonneg.2 h0, ?_, rfl⟩
  have := Int.floor_le q
  have h2 : ((⌊q⌋ : Int) : ℚ) ≤ 255 := this.trans h1
  exact_mod_cast h2

theorem channelsD {r g b : ℚ} (hr : 0 ≤ r) (hr' : r ≤ 255) (hg : 0 ≤ g) (hg' : g ≤ 255) (hb : 0 ≤ b) (hb' : b ≤ 255) :
    (red (mkColorD r g b) : Int) = ⌊r⌋ ∧ (green (mkColorD r g b) : Int) = ⌊g⌋ ∧ (blue (mkColorD r g b) : Int) = ⌊b⌋ := by
  obtain ⟨r1, r2, r3⟩ := toInt_byte hr hr'
  obtain ⟨g1, g2, g3⟩ := toInt_byte hg hg'
  obtain ⟨b1, b2, b3⟩ := toInt_byte hb hb'
  have := channels r1 r2 g1 g2 b1 b2
  rw [r3, g3, b3] at this
  unfold mkColorD
  rw [r3, g3, b3]
  exact this

theorem red_le (c : Color) : red c ≤ 255 := by unfold red; omega
theorem green_le (c : Color) : green c ≤ 255 := by unfold green; omega
theorem blue_le (c : Color) : blue c ≤ 255 := by unfold blue; omega

/-! ## The map -/

/-- what a map holds under a key -/
def find (m : PMap) (k : ℚ) : Option Color := (m.find? fun e => e.1 = k).map (·.2)

/-- keys in ascending order -/
def Sorted (m : PMap) : Prop := m.Pairwise fun a b => a.1 < b.1

theorem addColor_mem {m : PMap} {v : ℚ} {c : Color} {e : ℚ × Color} (h : e ∈ addColor m v c) : e = (v, c) ∨ e ∈ m := by
  induction m with
  | nil => simpa [addColor] using h
  | cons a m ih =>
    obtain ⟨k, d⟩ := a
    rw [addColor] at h
    split at h
    · simpa using h
    · split at h
      · rcases List.mem_cons.1 h with h | h
        · exact Or.inl h
        · exact Or.inr (List.mem_cons_of_mem _ h)
      · rcases List.mem_cons.1 h with h | h
        · exact Or.inr (by simp [h])
        · rcases ih h with h | h
          · exact Or.inl h
          · exact Or.inr (List.mem_cons_of_mem _ h)

theorem addColor_sorted {m : PMap} (hm : Sorted m) (v : ℚ) (c : Color) : Sorted (addColor m v c) := by
  induction m with
  | nil => simp [addColor, Sorted]
  | cons a m ih =>
    obtain ⟨k, d⟩ := a
    have h1 := List.pairwise_cons.1 hm
    rw [addColor]
    split
    · rename_i hlt
      refine List.pairwise_cons.2 ⟨?_, hm⟩
      intro e he
      rcases List.mem_cons.1 he with rfl | he
      · exact hlt
      · exact hlt.trans (h1.1 e he)
    · split
      · rename_i _ heq
        refine List.pairwise_cons.2 ⟨?_, h1.2⟩
        intro e he
        have := h1.1 e he
        simp only at this ⊢
        rw [heq]
        exact this
      · rename_i hlt hne
        refine List.pairwise_cons.2 ⟨?_, ih h1.2⟩
        intro e he
        rcases addColor_mem he with rfl | he
        · exact lt_of_le_of_ne (not_lt.1 hlt) (Ne.symm hne)
        · exact h1.1 e he

theorem find_cons (a : ℚ × Color) (m : PMap) (k : ℚ) : find (a :: m) k = if a.1 = k then some a.2 else find m k := by
  unfold find
  rw [List.find?_cons]
  by_cases h : a.1 = k
  · simp [h]
  · simp [h]

theorem find_none_of_lt {m : PMap} {k : ℚ} (h : ∀ e ∈ m, k < e.1) : find m k = none := by
  unfold find
  rw [List.find?_eq_none.2]
  · rfl
  · intro e he
    simpa using (h e he).ne'

theorem find_addColor {m : PMap} (hm : Sorted m) (v : ℚ) (c : Color) (k : ℚ) : find (addColor m v c) k = if k = v then some c else find m k := by
  induction m with
  | nil => simp [addColor, find, eq_comm]
  | cons a m ih =>
    obtain ⟨k', d⟩ := a
    have h1 := List.pairwise_cons.1 hm
    rw [addColor]
    split
    · rw [find_cons]
      exact if_congr eq_comm rfl rfl
    · split
      · rename_i _ heq
        rw [find_cons, find_cons]
        simp only
        by_cases h : k = v
        · simp [h]
        · rw [if_neg (Ne.symm h), if_neg h, if_neg (by rw [← heq]; exact Ne.symm h)]
      · rename_i hlt hne
        rw [find_cons, find_cons, ih h1.2]
        simp only
        by_cases h : k' = k
        · rw [if_pos h, if_pos h, if_neg]
          rintro rfl
          exact hne h.symm
        · rw [if_neg h, if_neg h]

theorem mem_find {m : PMap} (hm : Sorted m) {e : ℚ × Color} : e ∈ m ↔ find m e.1 = some e.2 := by
  induction m with
  | nil => simp [find]
  | cons a m ih =>
    have h1 := List.pairwise_cons.1 hm
    rw [find_cons, List.mem_cons]
    constructor
    · rintro (rfl | h)
      · simp
      · rw [if_neg (ne_of_lt (h1.1 e h))]
        exact (ih h1.2).1 h
    · intro h
      split at h
      · rename_i heq
        left
        exact Prod.ext heq.symm (Option.some.inj h).symm
      · exact Or.inr ((ih h1.2).2 h)

/-! ## Bounds -/

theorem before_spec {m : PMap} (hm : Sorted m) (v : ℚ) :
    (∀ e ∈ (upperBound m v).1, e ∈ m ∧ e.1 ≤ v) ∧ (∀ e ∈ (upperBound m v).2, e ∈ m ∧ v < e.1) ∧ m = (upperBound m v).1 ++ (upperBound m v).2 := by
  unfold upperBound
  simp only
  induction m with
  | nil => simp
  | cons a m ih =>
    have h1 := List.pairwise_cons.1 hm
    obtain ⟨i1, i2, i3⟩ := ih h1.2
    by_cases ha : a.1 ≤ v
    · simp only [List.takeWhile_cons, List.dropWhile_cons, ha, decide_true, if_true]
      refine ⟨?_, ?_, ?_⟩
      · intro e he
        rcases List.mem_cons.1 he with rfl | he
        · exact ⟨by simp, ha⟩
        · exact ⟨List.mem_cons_of_mem _ (i1 e he).1, (i1 e he).2⟩
      · intro e he
        exact ⟨List.mem_cons_of_mem _ (i2 e he).1, (i2 e he).2⟩
      · rw [List.cons_append, ← i3]
    · simp only [List.takeWhile_cons, List.dropWhile_cons, ha, decide_false, Bool.false_eq_true, if_false]
      refine ⟨by simp, ?_, by simp⟩
      intro e he
      refine ⟨he, ?_⟩
      rcases List.mem_cons.1 he with rfl | he
      · exact not_le.1 ha
      · exact (not_le.1 ha).trans (h1.1 e he)

/-- the last key up to `v` -/
theorem before_last {m : PMap} (hm : Sorted m) {v : ℚ} {l : ℚ × Color} (hl : (upperBound m v).1.getLast? = some l) :
    l ∈ m ∧ l.1 ≤ v ∧ ∀ e ∈ m, e.1 ≤ v → e.1 ≤ l.1 := by
  obtain ⟨h1, h2, h3⟩ := before_spec hm v
  have hmem := List.mem_of_getLast? hl
  refine ⟨(h1 l hmem).1, (h1 l hmem).2, ?_⟩
  intro e he hev
  rw [h3] at he
  rcases List.mem_append.1 he with he | he
  · obtain ⟨ys, hys⟩ := List.getLast?_eq_some_iff.1 hl
    rw [hys] at he
    rcases List.mem_append.1 he with he | he
    · have hs : Sorted (ys ++ [l]) := by
        have : Sorted ((upperBound m v).1 ++ (upperBound m v).2) := h3 ▸ hm
        rw [hys] at this
        exact (List.pairwise_append.1 this).1
      exact ((List.pairwise_append.1 hs).2.2 e he l (by simp)).le
    · simp only [List.mem_singleton] at he
      rw [he]
  · exact absurd hev (not_le.2 (h2 e he).2)

/-- the first key beyond `v` -/
theorem after_first {m : PMap} (hm : Sorted m) {v : ℚ} {u : ℚ × Color} {r : PMap} (hu : (upperBound m v).2 = u :: r) :
    u ∈ m ∧ v < u.1 ∧ ∀ e ∈ m, v < e.1 → u.1 ≤ e.1 := by
  obtain ⟨h1, h2, h3⟩ := before_spec hm v
  have hmem : u ∈ (upperBound m v).2 := by rw [hu]; simp
  refine ⟨(h2 u hmem).1, (h2 u hmem).2, ?_⟩
  intro e he hev
  rw [h3] at he
  rcases List.mem_append.1 he with he | he
  · exact absurd hev (not_lt.2 (h1 e he).2)
  · rw [hu] at he
    rcases List.mem_cons.1 he with rfl | he
    · exact le_rfl
    · have hs : Sorted (u :: r) := by
        have : Sorted ((upperBound m v).1 ++ (upperBound m v).2) := h3 ▸ hm
        rw [hu] at this
        exact (List.pairwise_append.1 this).2.1
      exact ((List.pairwise_cons.1 hs).1 e he).le

theorem mixed_bounds {lo hi : Nat} {k l v : ℚ} (hk : k ≤ v) (hl : v < l) :
    (min lo hi : ℕ) ≤ mixed lo hi (v - k) (l - k - (v - k)) (l - k) ∧ mixed lo hi (v - k) (l - k - (v - k)) (l - k) ≤ (max lo hi : ℕ) := by
  unfold mixed
  have hd : 0 < l - k := by linarith
  have h1 : (0 : ℚ) ≤ v - k := by linarith
  have h2 : (0 : ℚ) ≤ l - k - (v - k) := by linarith
  have a1 : ((min lo hi : ℕ) : ℚ) ≤ lo := by exact_mod_cast min_le_left _ _
  have a2 : ((min lo hi : ℕ) : ℚ) ≤ hi := by exact_mod_cast min_le_right _ _
  have b1 : (lo : ℚ) ≤ (max lo hi : ℕ) := by exact_mod_cast le_max_left _ _
  have b2 : (hi : ℚ) ≤ (max lo hi : ℕ) := by exact_mod_cast le_max_right _ _
  constructor
  · rw [le_div_iff₀ hd]
    nlinarith [mul_le_mul_of_nonneg_right a1 h2, mul_le_mul_of_nonneg_right a2 h1]
  · rw [div_le_iff₀ hd]
    nlinarith [mul_le_mul_of_nonneg_right b1 h2, mul_le_mul_of_nonneg_right b2 h1]

end LGD.Image
