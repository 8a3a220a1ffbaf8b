import Verif.Region.IterModel
import Mathlib.Tactic.Ring
import Mathlib.Tactic.Linarith

/-!
# Mixed-radix numbers: linear indices of box coordinates (lemmas)
-/

namespace LGD

/-- Horner form of the linear index of axes `i .. i + r`. -/
def lin (d : Crd) : Nat → Nat → Crd → Int
  | 0, i, c => c i
  | r + 1, i, c => c i + d i * lin d r (i + 1) c

/-- digits of a linear index, axes `i .. i + r` -/
def unlin (d : Crd) : Nat → Nat → Int → Crd
  | 0, i, k => fun j => if j = i then k else 0
  | r + 1, i, k => fun j => if j = i then k % d i else unlin d r (i + 1) (k / d i) j

/-- product of extents of axes `i .. i + r` -/
def vol (d : Crd) : Nat → Nat → Int
  | 0, i => d i
  | r + 1, i => d i * vol d r (i + 1)

theorem lin_congr (d : Crd) (r i : Nat) (a b : Crd) (h : ∀ j, i ≤ j → j ≤ i + r → a j = b j) : lin d r i a = lin d r i b := by
  induction r generalizing i with
  | zero => exact h i (by omega) (by omega)
  | succ r ih =>
    rw [lin, lin, h i (by omega) (by omega), ih (i + 1) (fun j h1 h2 => h j (by omega) (by omega))]

theorem unlin_below (d : Crd) (r i : Nat) (k : Int) (j : Nat) (h : j < i ∨ i + r < j) : unlin d r i k j = 0 := by
  induction r generalizing i k with
  | zero => simp only [unlin]; rw [if_neg (by omega)]
  | succ r ih => simp only [unlin]; rw [if_neg (by omega)]; exact ih _ _ (by omega)

theorem lin_unlin (d : Crd) (r i : Nat) (k : Int) : lin d r i (unlin d r i k) = k := by
  induction r generalizing i k with
  | zero => simp [lin, unlin]
  | succ r ih =>
    rw [lin]
    have h1 : unlin d (r + 1) i k i = k % d i := by simp [unlin]
    have h2 : lin d r (i + 1) (unlin d (r + 1) i k) = k / d i := by
      rw [lin_congr d r (i + 1) _ (unlin d r (i + 1) (k / d i)), ih]
      intro j hj _
      simp only [unlin]
      rw [if_neg (by omega)]
    rw [h1, h2]
    exact Int.emod_add_mul_ediv k (d i)

theorem unlin_lin (d : Crd) (r i : Nat) (c : Crd) (h : ∀ j, i ≤ j → j < i + r → 0 ≤ c j ∧ c j < d j) (j : Nat) (h1 : i ≤ j)
    (h2 : j ≤ i + r) : unlin d r i (lin d r i c) j = c j := by
  induction r generalizing i with
  | zero =>
    have : j = i := by omega
    subst this
    simp [lin, unlin]
  | succ r ih =>
    have hi := h i (by omega) (by omega)
    rw [lin]
    simp only [unlin]
    by_cases e : j = i
    · subst e
      simp only [if_true]
      rw [Int.add_mul_emod_self_left]
      exact Int.emod_eq_of_lt hi.1 hi.2
    · rw [if_neg e]
      have : (c i + d i * lin d r (i + 1) c) / d i = lin d r (i + 1) c := by
        rw [Int.add_mul_ediv_left _ _ (by omega), Int.ediv_eq_zero_of_lt hi.1 hi.2, Int.zero_add]
      rw [this]
      exact ih (i + 1) (fun j h1 h2 => h j (by omega) (by omega)) (by omega) (by omega)

theorem lin_nonneg (d : Crd) (r i : Nat) (c : Crd) (h : ∀ j, i ≤ j → j ≤ i + r → 0 ≤ c j) (hd : ∀ j, i ≤ j → j < i + r → 0 ≤ d j) :
    0 ≤ lin d r i c := by
  induction r generalizing i with
  | zero => exact h i (by omega) (by omega)
  | succ r ih =>
    rw [lin]
    have h1 := h i (by omega) (by omega)
    have h2 := ih (i + 1) (fun j a b => h j (by omega) (by omega)) (fun j a b => hd j (by omega) (by omega))
    have h3 := hd i (by omega) (by omega)
    have := Int.mul_nonneg h3 h2
    omega

theorem lin_lt_vol (d : Crd) (r i : Nat) (c : Crd) (h : ∀ j, i ≤ j → j ≤ i + r → 0 ≤ c j ∧ c j < d j) : lin d r i c < vol d r i := by
  induction r generalizing i with
  | zero => exact (h i (by omega) (by omega)).2
  | succ r ih =>
    rw [lin, vol]
    have h1 := h i (by omega) (by omega)
    have h2 := ih (i + 1) (fun j a b => h j (by omega) (by omega))
    have h3 : d i * lin d r (i + 1) c ≤ d i * (vol d r (i + 1) - 1) := Int.mul_le_mul_of_nonneg_left (by omega) (by omega)
    have h4 : d i * (vol d r (i + 1) - 1) = d i * vol d r (i + 1) - d i := by ring
    omega

theorem vol_pos (d : Crd) (r i : Nat) (h : ∀ j, i ≤ j → j ≤ i + r → 0 < d j) : 0 < vol d r i := by
  induction r generalizing i with
  | zero => exact h i (by omega) (by omega)
  | succ r ih =>
    rw [vol]
    exact Int.mul_pos (h i (by omega) (by omega)) (ih (i + 1) (fun j a b => h j (by omega) (by omega)))

theorem vol_nonneg (d : Crd) (r i : Nat) (h : ∀ j, i ≤ j → j ≤ i + r → 0 ≤ d j) : 0 ≤ vol d r i := by
  induction r generalizing i with
  | zero => exact h i (by omega) (by omega)
  | succ r ih =>
    rw [vol]
    exact Int.mul_nonneg (h i (by omega) (by omega)) (ih (i + 1) (fun j a b => h j (by omega) (by omega)))

theorem unlin_range (d : Crd) (r i : Nat) (k : Int) (hd : ∀ j, i ≤ j → j < i + r → 0 < d j) (h0 : 0 ≤ k) (hk : k < vol d r i) (j : Nat)
    (h1 : i ≤ j) (h2 : j ≤ i + r) : 0 ≤ unlin d r i k j ∧ unlin d r i k j < d j := by
  induction r generalizing i k with
  | zero =>
    have : j = i := by omega
    subst this
    simp only [unlin, if_true]
    exact ⟨h0, hk⟩
  | succ r ih =>
    have hi := hd i (by omega) (by omega)
    simp only [unlin]
    by_cases e : j = i
    · subst e
      simp only [if_true]
      exact ⟨Int.emod_nonneg k (by omega), Int.emod_lt_of_pos k hi⟩
    · rw [if_neg e]
      rw [vol] at hk
      exact ih (i + 1) (k / d i) (fun j a b => hd j (by omega) (by omega)) (Int.ediv_nonneg h0 (by omega))
        (Int.ediv_lt_of_lt_mul hi (by rw [Int.mul_comm]; exact hk)) (by omega) (by omega)

/-- digits of lower axes are in range for arbitrary non-negative `k` -/
theorem unlin_low (d : Crd) (r i : Nat) (k : Int) (hd : ∀ j, i ≤ j → j < i + r → 0 < d j) (j : Nat)
    (h1 : i ≤ j) (h2 : j < i + r) : 0 ≤ unlin d r i k j ∧ unlin d r i k j < d j := by
  induction r generalizing i k with
  | zero => omega
  | succ r ih =>
    have hi := hd i (by omega) (by omega)
    simp only [unlin]
    by_cases e : j = i
    · subst e
      simp only [if_true]
      exact ⟨Int.emod_nonneg k (by omega), Int.emod_lt_of_pos k hi⟩
    · rw [if_neg e]
      exact ih (i + 1) (k / d i) (fun j a b => hd j (by omega) (by omega)) (by omega) (by omega)

/-- The linear index preserves the storage order (highest axis most significant). -/
theorem lin_lt_of_before (d : Crd) (r i : Nat) (a b : Crd) (ha : ∀ j, i ≤ j → j < i + r → 0 ≤ a j ∧ a j < d j)
    (hb : ∀ j, i ≤ j → j < i + r → 0 ≤ b j ∧ b j < d j)
    (h : ∃ k, i ≤ k ∧ k ≤ i + r ∧ a k < b k ∧ ∀ j, k < j → j ≤ i + r → a j = b j) : lin d r i a < lin d r i b := by
  induction r generalizing i with
  | zero =>
    obtain ⟨k, h1, h2, h3, _⟩ := h
    have : k = i := by omega
    subst this
    exact h3
  | succ r ih =>
    have hai := ha i (by omega) (by omega)
    have hbi := hb i (by omega) (by omega)
    obtain ⟨k, h1, h2, h3, h4⟩ := h
    rw [lin, lin]
    by_cases e : k = i
    · subst e
      rw [lin_congr d r (k + 1) a b (fun j x y => h4 j (by omega) (by omega))]
      omega
    · have := ih (i + 1) (fun j x y => ha j (by omega) (by omega)) (fun j x y => hb j (by omega) (by omega))
        ⟨k, by omega, by omega, h3, fun j x y => h4 j x (by omega)⟩
      have h5 : d i * (lin d r (i + 1) a + 1) ≤ d i * lin d r (i + 1) b := Int.mul_le_mul_of_nonneg_left (by omega) (by omega)
      have h6 : d i * (lin d r (i + 1) a + 1) = d i * lin d r (i + 1) a + d i := by ring
      omega

theorem before_total (i r : Nat) (a b : Crd) :
    (∀ j, i ≤ j → j ≤ i + r → a j = b j) ∨
    (∃ k, i ≤ k ∧ k ≤ i + r ∧ a k < b k ∧ ∀ j, k < j → j ≤ i + r → a j = b j) ∨
    (∃ k, i ≤ k ∧ k ≤ i + r ∧ b k < a k ∧ ∀ j, k < j → j ≤ i + r → b j = a j) := by
  induction r generalizing i with
  | zero =>
    rcases Int.lt_trichotomy (a i) (b i) with h | h | h
    · exact Or.inr (Or.inl ⟨i, by omega, by omega, h, fun j x y => by omega⟩)
    · left; intro j x y; have : j = i := by omega
      subst this; exact h
    · exact Or.inr (Or.inr ⟨i, by omega, by omega, h, fun j x y => by omega⟩)
  | succ r ih =>
    rcases ih (i + 1) with h | ⟨k, h1, h2, h3, h4⟩ | ⟨k, h1, h2, h3, h4⟩
    · rcases Int.lt_trichotomy (a i) (b i) with h' | h' | h'
      · exact Or.inr (Or.inl ⟨i, by omega, by omega, h', fun j x y => h j (by omega) (by omega)⟩)
      · left; intro j x y
        by_cases e : j = i
        · subst e; exact h'
        · exact h j (by omega) (by omega)
      · exact Or.inr (Or.inr ⟨i, by omega, by omega, h', fun j x y => (h j (by omega) (by omega)).symm⟩)
    · exact Or.inr (Or.inl ⟨k, by omega, by omega, h3, fun j x y => h4 j x (by omega)⟩)
    · exact Or.inr (Or.inr ⟨k, by omega, by omega, h3, fun j x y => h4 j x (by omega)⟩)

theorem lin_lt_iff (d : Crd) (r i : Nat) (a b : Crd) (ha : ∀ j, i ≤ j → j < i + r → 0 ≤ a j ∧ a j < d j)
    (hb : ∀ j, i ≤ j → j < i + r → 0 ≤ b j ∧ b j < d j) :
    lin d r i a < lin d r i b ↔ ∃ k, i ≤ k ∧ k ≤ i + r ∧ a k < b k ∧ ∀ j, k < j → j ≤ i + r → a j = b j := by
  constructor
  · intro h
    rcases before_total i r a b with h' | h' | h'
    · rw [lin_congr d r i a b h'] at h; omega
    · exact h'
    · have := lin_lt_of_before d r i b a hb ha h'; omega
  · exact lin_lt_of_before d r i a b ha hb

end LGD
