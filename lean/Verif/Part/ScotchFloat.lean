import Verif.Part.ScotchModel
import Mathlib.Tactic.Ring
import Mathlib.Tactic.Linarith
import Mathlib.Tactic.NormNum
import Mathlib.Algebra.Order.Floor.Ring

/-!
# Single precision in `getStartEnd`
-/

namespace LGD.Scotch

theorem roundEven_floor (x : ℚ) : roundEven x = ⌊x⌋ ∨ roundEven x = ⌊x⌋ + 1 := by
  unfold roundEven
  split_ifs <;> simp

theorem roundEven_mono {x y : ℚ} (h : x ≤ y) : roundEven x ≤ roundEven y := by
  have hf := Int.floor_mono h
  by_cases e : ⌊x⌋ = ⌊y⌋
  · unfold roundEven
    rw [e]
    split_ifs <;> first | omega | linarith
  · rcases roundEven_floor x with hx | hx <;> rcases roundEven_floor y with hy | hy <;> omega

theorem roundEven_int (m : Int) : roundEven m = m := by
  unfold roundEven
  simp

theorem ulp_pos (x : ℚ) : 0 < ulp x := by unfold ulp; exact zpow_pos (by norm_num) _

theorem f32_of_int {x : ℚ} (hx : 0 < x) {m : Int} (h : x = m * ulp x) : f32 x = x := by
  have hu := ulp_pos x
  unfold f32
  rw [if_neg (not_le.2 hx)]
  have : x / ulp x = m := by rw [eq_comm, eq_div_iff hu.ne', ← h]
  rw [this, roundEven_int, ← h]

theorem ulp_bounds {x : ℚ} (hx : 0 < x) : (2 ^ 23 : ℚ) ≤ x / ulp x ∧ x / ulp x < 2 ^ 24 := by
  have hu := ulp_pos x
  have h1 := Int.zpow_log_le_self (b := 2) (by norm_num) hx
  have h2 := Int.lt_zpow_succ_log_self (b := 2) (by norm_num) x
  have e1 : (2 ^ 23 : ℚ) * ulp x = (2 : ℚ) ^ Int.log 2 x := by
    unfold ulp
    rw [← zpow_natCast, ← zpow_add₀ (by norm_num)]
    congr 1
    push_cast
    ring
  have e2 : (2 ^ 24 : ℚ) * ulp x = (2 : ℚ) ^ (Int.log 2 x + 1) := by
    unfold ulp
    rw [← zpow_natCast, ← zpow_add₀ (by norm_num)]
    congr 1
    push_cast
    ring
  constructor
  · rw [le_div_iff₀ hu, e1]; exact_mod_cast h1
  · rw [div_lt_iff₀ hu, e2]; exact_mod_cast h2

theorem f32_range {x : ℚ} (hx : 0 < x) : (2 : ℚ) ^ Int.log 2 x ≤ f32 x ∧ f32 x ≤ (2 : ℚ) ^ (Int.log 2 x + 1) := by
  have hu := ulp_pos x
  obtain ⟨h1, h2⟩ := ulp_bounds hx
  have e1 : (2 : ℚ) ^ Int.log 2 x = (2 ^ 23 : ℚ) * ulp x := by
    unfold ulp
    rw [← zpow_natCast, ← zpow_add₀ (by norm_num)]
    congr 1
    push_cast
    ring
  have e2 : (2 : ℚ) ^ (Int.log 2 x + 1) = (2 ^ 24 : ℚ) * ulp x := by
    unfold ulp
    rw [← zpow_natCast, ← zpow_add₀ (by norm_num)]
    congr 1
    push_cast
    ring
  have r1 := roundEven_mono (x := ((2 ^ 23 : Int) : ℚ)) (y := x / ulp x) (by push_cast; exact h1)
  have r2 := roundEven_mono (x := x / ulp x) (y := ((2 ^ 24 : Int) : ℚ)) (by push_cast; exact h2.le)
  rw [roundEven_int] at r1 r2
  unfold f32
  rw [if_neg (not_le.2 hx), e1, e2]
  constructor
  · refine mul_le_mul_of_nonneg_right ?_ hu.le
    exact_mod_cast r1
  · refine mul_le_mul_of_nonneg_right ?_ hu.le
    exact_mod_cast r2

theorem f32_nonneg (x : ℚ) : 0 ≤ f32 x := by
  by_cases hx : x ≤ 0
  · unfold f32; rw [if_pos hx]
  · exact le_trans (zpow_pos (by norm_num) _).le (f32_range (not_le.1 hx)).1

theorem f32_mono {x y : ℚ} (h : x ≤ y) : f32 x ≤ f32 y := by
  by_cases hx : x ≤ 0
  · have : f32 x = 0 := by unfold f32; rw [if_pos hx]
    rw [this]
    exact f32_nonneg y
  · have hx := not_le.1 hx
    have hy : 0 < y := lt_of_lt_of_le hx h
    have hl : Int.log 2 x ≤ Int.log 2 y := Int.log_mono_right hx h
    by_cases e : Int.log 2 x = Int.log 2 y
    · have hu : ulp x = ulp y := by unfold ulp; rw [e]
      unfold f32
      rw [if_neg (not_le.2 hx), if_neg (not_le.2 hy), hu]
      refine mul_le_mul_of_nonneg_right ?_ (ulp_pos y).le
      exact_mod_cast roundEven_mono (div_le_div_of_nonneg_right h (ulp_pos y).le)
    · refine le_trans (f32_range hx).2 (le_trans ?_ (f32_range hy).1)
      exact zpow_le_zpow_right₀ (by norm_num) (by omega)

theorem f32_zero : f32 0 = 0 := by unfold f32; simp

/-- Integers up to 2²⁴ have a representation. -/
theorem f32_nat {m : Nat} (h : m ≤ 2 ^ 24) : f32 m = m := by
  by_cases h0 : m = 0
  · subst h0; simpa using f32_zero
  have hpos : (0 : ℚ) < m := by exact_mod_cast Nat.pos_of_ne_zero h0
  have hlog : Int.log 2 (m : ℚ) = (Nat.log 2 m : Int) := Int.log_natCast 2 m
  by_cases hl : Nat.log 2 m ≤ 23
  · refine f32_of_int hpos (m := (m : Int) * 2 ^ (23 - Nat.log 2 m)) ?_
    unfold ulp
    rw [hlog]
    push_cast
    rw [← zpow_natCast, mul_assoc, ← zpow_add₀ (by norm_num)]
    rw [Nat.cast_sub hl]
    norm_num
  · have : m = 2 ^ 24 := by
      have := Nat.pow_log_le_self 2 h0
      have h24 : 2 ^ 24 ≤ 2 ^ Nat.log 2 m := Nat.pow_le_pow_right (by norm_num) (by omega)
      omega
    subst this
    have hlog' : Nat.log 2 (2 ^ 24) = 24 := Nat.log_pow (by norm_num) 24
    refine f32_of_int hpos (m := 2 ^ 23) ?_
    unfold ulp
    rw [hlog, hlog']
    norm_num

theorem f32_one : f32 1 = 1 := by simpa using f32_nat (m := 1) (by norm_num)

theorem f32_pos {N : Nat} (hN : 0 < N) : 0 < f32 N := by
  have : (1 : ℚ) ≤ N := by exact_mod_cast hN
  have := f32_mono this
  rw [f32_one] at this
  linarith

theorem bound_zero (N cells : Nat) : bound N cells 0 = 0 := by
  unfold bound
  simp [f32_zero]

theorem bound_mono (N cells : Nat) {a b : Nat} (h : a ≤ b) : bound N cells a ≤ bound N cells b := by
  unfold bound
  refine Int.floor_mono (f32_mono (mul_le_mul_of_nonneg_right (f32_mono (div_le_div_of_nonneg_right (f32_mono ?_) (f32_nonneg _))) (f32_nonneg _)))
  exact_mod_cast h

theorem bound_last {N : Nat} (hN : 0 < N) (cells : Nat) : bound N cells N = ⌊f32 (f32 cells)⌋ := by
  unfold bound
  rw [div_self (f32_pos hN).ne', f32_one, one_mul]

theorem bound_nonneg (N cells r : Nat) : 0 ≤ bound N cells r := by
  have := bound_mono N cells (Nat.zero_le r)
  rwa [bound_zero] at this

/-- Every number of a cell belongs to exactly one rank. -/
theorem bound_cover (N cells : Nat) (m : Int) (h0 : 0 ≤ m) (h1 : m < bound N cells N) :
    ∃ r, r < N ∧ bound N cells r ≤ m ∧ m < bound N cells (r + 1) := by
  have key : ∀ k, k ≤ N → m < bound N cells k → ∃ r, r < k ∧ bound N cells r ≤ m ∧ m < bound N cells (r + 1) := by
    intro k
    induction k with
    | zero => intro _ h; rw [bound_zero] at h; omega
    | succ k ih =>
      intro hk h
      by_cases hc : m < bound N cells k
      · obtain ⟨r, a, b⟩ := ih (by omega) hc
        exact ⟨r, by omega, b⟩
      · exact ⟨k, by omega, by omega, h⟩
  exact key N le_rfl h1

theorem bound_unique (N cells : Nat) {m : Int} {r r' : Nat} (h : bound N cells r ≤ m ∧ m < bound N cells (r + 1))
    (h' : bound N cells r' ≤ m ∧ m < bound N cells (r' + 1)) : r = r' := by
  rcases lt_trichotomy r r' with e | e | e
  · have := bound_mono N cells (show r + 1 ≤ r' by omega); omega
  · exact e
  · have := bound_mono N cells (show r' + 1 ≤ r by omega); omega

/-- numbers just above 2²⁴ -/
theorem f32_above {m : Nat} (h1 : 2 ^ 24 ≤ m) (h2 : m < 2 ^ 25) : f32 m = 2 * roundEven (m / 2) := by
  have hpos : (0 : ℚ) < m := by exact_mod_cast lt_of_lt_of_le (by norm_num) h1
  have hlog : Int.log 2 (m : ℚ) = 24 := by
    rw [Int.log_natCast 2 m]
    have : Nat.log 2 m = 24 := (Nat.log_eq_iff (by norm_num)).2 ⟨h1, h2⟩
    rw [this]; rfl
  unfold f32
  have : ulp m = 2 := by unfold ulp; rw [hlog]; norm_num
  rw [if_neg (not_le.2 hpos), this, mul_comm]

theorem f32_up_down : f32 ((16777217 : Nat) : ℚ) = 16777216 ∧ f32 ((16777219 : Nat) : ℚ) = 16777220 ∧
    f32 (16777216 : ℚ) = 16777216 ∧ f32 (16777220 : ℚ) = 16777220 := by
  have r1 : roundEven (((16777217 : Nat) : ℚ) / 2) = 8388608 := by
    have : ⌊((16777217 : Nat) : ℚ) / 2⌋ = 8388608 := by rw [Int.floor_eq_iff]; norm_num
    unfold roundEven
    rw [this]
    norm_num
  have r2 : roundEven (((16777219 : Nat) : ℚ) / 2) = 8388610 := by
    have : ⌊((16777219 : Nat) : ℚ) / 2⌋ = 8388609 := by rw [Int.floor_eq_iff]; norm_num
    unfold roundEven
    rw [this]
    norm_num
  have r3 : roundEven (((16777220 : Nat) : ℚ) / 2) = 8388610 := by
    have : ((16777220 : Nat) : ℚ) / 2 = ((8388610 : Int) : ℚ) := by norm_num
    rw [this, roundEven_int]
  refine ⟨?_, ?_, ?_, ?_⟩
  · rw [f32_above (by norm_num) (by norm_num), r1]; norm_num
  · rw [f32_above (by norm_num) (by norm_num), r2]; norm_num
  · simpa using f32_nat (m := 16777216) (by norm_num)
  · have := f32_above (m := 16777220) (by norm_num) (by norm_num)
    rw [r3] at this
    push_cast at this
    rw [this]; norm_num

end LGD.Scotch
