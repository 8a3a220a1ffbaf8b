import Verif.Ieee.RoundModel

/-! # Properties of rounding -/

namespace LGD.Ieee

theorem nearestEven_cases (x : ℚ) : nearestEven x = ⌊x⌋ ∨ nearestEven x = ⌊x⌋ + 1 := by
  unfold nearestEven; split_ifs <;> simp

theorem nearestEven_error (x : ℚ) : |(nearestEven x : ℚ) - x| ≤ 1 / 2 := by
  have h1 := Int.floor_le x
  have h2 := Int.lt_floor_add_one x
  unfold nearestEven
  rw [abs_le]
  split_ifs <;> push_cast <;> constructor <;> linarith

theorem nearestEven_int (k : ℤ) : nearestEven (k : ℚ) = k := by
  unfold nearestEven; simp

theorem nearestEven_mono {x y : ℚ} (h : x ≤ y) : nearestEven x ≤ nearestEven y := by
  have hf : ⌊x⌋ ≤ ⌊y⌋ := Int.floor_le_floor h
  rcases lt_or_eq_of_le hf with hlt | heq
  · rcases nearestEven_cases x with h1 | h1 <;> rcases nearestEven_cases y with h2 | h2 <;> omega
  · unfold nearestEven
    rw [heq]
    split_ifs <;> first | omega | (exfalso; linarith)

theorem nearestEven_neg (x : ℚ) : nearestEven (-x) = -nearestEven x := by
  by_cases hx : (⌊x⌋ : ℚ) = x
  · have : nearestEven x = ⌊x⌋ := by rw [← hx, Int.floor_intCast, nearestEven_int]
    rw [this]
    have h2 : -x = ((-⌊x⌋ : ℤ) : ℚ) := by push_cast; rw [hx]
    rw [h2, nearestEven_int]
  · have h1 := Int.floor_le x
    have h2 := Int.lt_floor_add_one x
    have h3 : (⌊x⌋ : ℚ) < x := lt_of_le_of_ne h1 hx
    have hf : ⌊-x⌋ = -⌊x⌋ - 1 := by
      rw [Int.floor_eq_iff]; push_cast; constructor <;> linarith
    unfold nearestEven
    rw [hf]
    push_cast
    split_ifs <;> first | omega | (exfalso; linarith)

theorem two_pos (e : ℤ) : (0 : ℚ) < (2 : ℚ) ^ e := zpow_pos (by norm_num) e

theorem lastBit_neg (x : ℚ) : lastBit (-x) = lastBit x := by unfold lastBit; rw [abs_neg]

theorem rnd_neg (x : ℚ) : rnd (-x) = -rnd x := by
  unfold rnd
  rw [lastBit_neg, neg_div, nearestEven_neg]
  push_cast
  ring

theorem rnd_zero : rnd 0 = 0 := by
  unfold rnd
  have : nearestEven 0 = 0 := nearestEven_int 0
  rw [zero_div, this]
  simp

/-- multiples of the last bit bound results -/
theorem rnd_ge {x : ℚ} {k : ℤ} (h : k * (2 : ℚ) ^ lastBit x ≤ x) : k * (2 : ℚ) ^ lastBit x ≤ rnd x := by
  have hp := two_pos (lastBit x)
  have : (k : ℚ) ≤ x / (2 : ℚ) ^ lastBit x := by rwa [le_div_iff₀ hp]
  have := nearestEven_mono this
  rw [nearestEven_int] at this
  unfold rnd
  exact mul_le_mul_of_nonneg_right (by exact_mod_cast this) hp.le

theorem rnd_le {x : ℚ} {k : ℤ} (h : x ≤ k * (2 : ℚ) ^ lastBit x) : rnd x ≤ k * (2 : ℚ) ^ lastBit x := by
  have hp := two_pos (lastBit x)
  have : x / (2 : ℚ) ^ lastBit x ≤ (k : ℚ) := by rwa [div_le_iff₀ hp]
  have := nearestEven_mono this
  rw [nearestEven_int] at this
  unfold rnd
  exact mul_le_mul_of_nonneg_right (by exact_mod_cast this) hp.le

theorem rnd_nonneg {x : ℚ} (h : 0 ≤ x) : 0 ≤ rnd x := by
  have := rnd_ge (x := x) (k := 0) (by simpa using h)
  simpa using this

theorem rnd_nonpos {x : ℚ} (h : x ≤ 0) : rnd x ≤ 0 := by
  have := rnd_le (x := x) (k := 0) (by simpa using h)
  simpa using this

theorem pow_eq_mul {a b : ℤ} (h : b ≤ a) : ∃ k : ℤ, (2 : ℚ) ^ a = k * (2 : ℚ) ^ b := by
  refine ⟨2 ^ (a - b).toNat, ?_⟩
  push_cast
  rw [← zpow_natCast, ← zpow_add₀ (by norm_num)]
  congr 1
  omega

theorem rnd_mono_pos {x y : ℚ} (hx : 0 < x) (h : x ≤ y) : rnd x ≤ rnd y := by
  have hy : 0 < y := lt_of_lt_of_le hx h
  have hl : Int.log 2 |x| ≤ Int.log 2 |y| := by
    rw [abs_of_pos hx, abs_of_pos hy]
    exact Int.log_mono_right hx h
  have hq : lastBit x ≤ lastBit y := by unfold lastBit; omega
  rcases lt_or_eq_of_le hq with hlt | heq
  · have e1 : lastBit y = Int.log 2 |y| - 52 := by unfold lastBit at hlt ⊢; omega
    have e2 : Int.log 2 |x| < Int.log 2 |y| := by unfold lastBit at hlt; omega
    rw [abs_of_pos hx, abs_of_pos hy] at e2
    rw [abs_of_pos hy] at e1
    have h1 : x < (2 : ℚ) ^ Int.log 2 y := by
      have := (Int.lt_zpow_iff_log_lt (b := 2) (by norm_num) hx).2 e2
      simpa using this
    have h2 : (2 : ℚ) ^ Int.log 2 y ≤ y := by
      have := Int.zpow_log_le_self (b := 2) (by norm_num) hy
      simpa using this
    obtain ⟨k, hk⟩ := pow_eq_mul (a := Int.log 2 y) (b := lastBit x) (by omega)
    obtain ⟨k', hk'⟩ := pow_eq_mul (a := Int.log 2 y) (b := lastBit y) (by omega)
    have a1 : rnd x ≤ (2 : ℚ) ^ Int.log 2 y := by
      rw [hk]; exact rnd_le (by rw [← hk]; exact h1.le)
    have a2 : (2 : ℚ) ^ Int.log 2 y ≤ rnd y := by
      rw [hk']; exact rnd_ge (by rw [← hk']; exact h2)
    exact a1.trans a2
  · unfold rnd
    rw [heq]
    have hp := two_pos (lastBit y)
    refine mul_le_mul_of_nonneg_right ?_ hp.le
    have := nearestEven_mono (div_le_div_of_nonneg_right h hp.le)
    exact_mod_cast this

/-- rounding is monotone -/
theorem rnd_mono {x y : ℚ} (h : x ≤ y) : rnd x ≤ rnd y := by
  rcases lt_or_ge 0 x with hx | hx
  · exact rnd_mono_pos hx h
  · rcases lt_or_ge y 0 with hy | hy
    · have := rnd_mono_pos (x := -y) (y := -x) (by linarith) (by linarith)
      rw [rnd_neg, rnd_neg] at this
      linarith
    · exact (rnd_nonpos hx).trans (rnd_nonneg hy)

theorem rnd_of_multiple {x : ℚ} {k : ℤ} (h : x = k * (2 : ℚ) ^ lastBit x) : rnd x = x := by
  apply le_antisymm
  · rw [h]
    have := rnd_le (x := x) (k := k) h.le
    rw [← h] at this ⊢
    exact this
  · have := rnd_ge (x := x) (k := k) h.ge
    rw [← h] at this
    exact this

/-- numbers which can be represented aren't changed -/
theorem rnd_double {x : ℚ} (h : Double x) : rnd x = x := by
  obtain ⟨m, e, hm, he, rfl⟩ := h
  by_cases h0 : m = 0
  · subst h0; simp [rnd_zero]
  have hmpos : (0 : ℚ) < |(m : ℚ)| := abs_pos.2 (by exact_mod_cast h0)
  have habs : |(m : ℚ) * (2 : ℚ) ^ e| = |(m : ℚ)| * (2 : ℚ) ^ e := by rw [abs_mul, abs_of_pos (two_pos e)]
  have hmq : |(m : ℚ)| ≤ 2 ^ 53 := by exact_mod_cast hm
  have hpos : 0 < |(m : ℚ) * (2 : ℚ) ^ e| := by rw [habs]; exact mul_pos hmpos (two_pos e)
  rcases lt_or_eq_of_le hmq with hlt | heq
  · have : Int.log 2 |(m : ℚ) * (2 : ℚ) ^ e| < 53 + e := by
      refine (Int.lt_zpow_iff_log_lt (b := 2) (by norm_num) hpos).1 ?_
      rw [habs]
      have e2 : ((2 : ℕ) : ℚ) ^ (53 + e) = 2 ^ 53 * (2 : ℚ) ^ e := by
        rw [Nat.cast_ofNat, zpow_add₀ (by norm_num)]; norm_num
      rw [e2]
      exact mul_lt_mul_of_pos_right hlt (two_pos e)
    obtain ⟨k, hk⟩ := pow_eq_mul (a := e) (b := lastBit ((m : ℚ) * (2 : ℚ) ^ e)) (by unfold lastBit; omega)
    refine rnd_of_multiple (k := m * k) ?_
    push_cast
    rw [mul_assoc, ← hk]
  · have hlog : Int.log 2 |(m : ℚ) * (2 : ℚ) ^ e| = 53 + e := by
      rw [habs, heq]
      have e2 : (2 : ℚ) ^ 53 * (2 : ℚ) ^ e = ((2 : ℕ) : ℚ) ^ (53 + e) := by
        rw [Nat.cast_ofNat, zpow_add₀ (by norm_num)]; norm_num
      rw [e2]
      exact Int.log_zpow (by norm_num) _
    have hb : lastBit ((m : ℚ) * (2 : ℚ) ^ e) = e + 1 := by unfold lastBit; rw [hlog]; omega
    have hm' : |m| = 2 ^ 53 := by exact_mod_cast heq
    obtain ⟨j, hj⟩ : ∃ j, m = 2 * j := by
      rcases abs_eq (by norm_num : (0 : ℤ) ≤ 2 ^ 53) |>.1 hm' with h | h
      · exact ⟨2 ^ 52, by rw [h]; norm_num⟩
      · exact ⟨-2 ^ 52, by rw [h]; norm_num⟩
    refine rnd_of_multiple (k := j) ?_
    rw [hb, zpow_add₀ (by norm_num), hj]
    push_cast
    ring

theorem rnd_error (x : ℚ) : |rnd x - x| ≤ (2 : ℚ) ^ lastBit x / 2 := by
  have hp := two_pos (lastBit x)
  have h := nearestEven_error (x / (2 : ℚ) ^ lastBit x)
  have e : rnd x - x = ((nearestEven (x / (2 : ℚ) ^ lastBit x) : ℚ) - x / (2 : ℚ) ^ lastBit x) * (2 : ℚ) ^ lastBit x := by
    unfold rnd; rw [sub_mul, div_mul_cancel₀ _ hp.ne']
  rw [e, abs_mul, abs_of_pos hp]
  nlinarith

/-- the relative error without underflow -/
theorem rnd_rel {x : ℚ} (h : (2 : ℚ) ^ (-1022 : ℤ) ≤ |x|) : |rnd x - x| ≤ |x| / 2 ^ 53 := by
  have hx : 0 < |x| := lt_of_lt_of_le (two_pos _) h
  have hl : -1022 ≤ Int.log 2 |x| := by
    refine (Int.zpow_le_iff_le_log (b := 2) (by norm_num) hx).1 ?_
    simpa using h
  have hb : lastBit x = Int.log 2 |x| - 52 := by unfold lastBit; omega
  have h2 : (2 : ℚ) ^ Int.log 2 |x| ≤ |x| := by
    have := Int.zpow_log_le_self (b := 2) (by norm_num) hx
    simpa using this
  refine (rnd_error x).trans ?_
  rw [hb, zpow_sub₀ (by norm_num), div_div]
  have : (2 : ℚ) ^ (52 : ℤ) * 2 = 2 ^ 53 := by norm_num
  rw [this]
  exact div_le_div_of_nonneg_right h2 (by norm_num)

theorem rnd_abs_error (x : ℚ) : |rnd x - x| ≤ |x| / 2 ^ 53 + (2 : ℚ) ^ (-1075 : ℤ) := by
  by_cases h : (2 : ℚ) ^ (-1022 : ℤ) ≤ |x|
  · exact (rnd_rel h).trans (le_add_of_nonneg_right (two_pos _).le)
  · push Not at h
    by_cases h0 : x = 0
    · subst h0
      rw [rnd_zero, sub_self, abs_zero, zero_div, zero_add]
      exact (two_pos _).le
    have hb : lastBit x = -1074 := by
      have hx : 0 < |x| := abs_pos.2 h0
      have : Int.log 2 |x| < -1022 := by
        refine (Int.lt_zpow_iff_log_lt (b := 2) (by norm_num) hx).1 ?_
        simpa using h
      unfold lastBit; omega
    refine (rnd_error x).trans ?_
    rw [hb]
    have : (2 : ℚ) ^ (-1074 : ℤ) / 2 = (2 : ℚ) ^ (-1075 : ℤ) := by
      rw [show (-1075 : ℤ) = -1074 - 1 by norm_num, zpow_sub₀ (by norm_num), zpow_one]
    rw [this]
    exact le_add_of_nonneg_left (by have := abs_nonneg x; exact div_nonneg this (by norm_num))

/-- differences and sums of numbers don't underflow -/
theorem rnd_sub_rel {x y : ℚ} (hx : Double x) (hy : Double y) : |rnd (x - y) - (x - y)| ≤ |x - y| / 2 ^ 53 := by
  by_cases h : (2 : ℚ) ^ (-1022 : ℤ) ≤ |x - y|
  · exact rnd_rel h
  · push Not at h
    by_cases h0 : x - y = 0
    · rw [h0, rnd_zero, sub_self, abs_zero, zero_div]
    have hb : lastBit (x - y) = -1074 := by
      have hx : 0 < |x - y| := abs_pos.2 h0
      have : Int.log 2 |x - y| < -1022 := by
        refine (Int.lt_zpow_iff_log_lt (b := 2) (by norm_num) hx).1 ?_
        simpa using h
      unfold lastBit; omega
    have : rnd (x - y) = x - y := by
      obtain ⟨m, e, _, he, rfl⟩ := hx
      obtain ⟨m', e', _, he', rfl⟩ := hy
      obtain ⟨k, hk⟩ := pow_eq_mul he
      obtain ⟨k', hk'⟩ := pow_eq_mul he'
      refine rnd_of_multiple (k := m * k - m' * k') ?_
      rw [hb]
      push_cast
      rw [hk, hk']
      generalize (2 : ℚ) ^ (-1074 : ℤ) = u
      ring
    rw [this, sub_self, abs_zero]
    exact div_nonneg (abs_nonneg _) (by norm_num)

/-- results can be represented -/
theorem double_rnd (x : ℚ) : Double (rnd x) := by
  refine ⟨nearestEven (x / (2 : ℚ) ^ lastBit x), lastBit x, ?_, by unfold lastBit; omega, rfl⟩
  have hlt : |x / (2 : ℚ) ^ lastBit x| ≤ 2 ^ 53 := by
    rw [abs_div, abs_of_pos (two_pos _), div_le_iff₀ (two_pos _)]
    have h1 : |x| < ((2 : ℕ) : ℚ) ^ (Int.log 2 |x| + 1) := Int.lt_zpow_succ_log_self (by norm_num) _
    have h2 : ((2 : ℕ) : ℚ) ^ (Int.log 2 |x| + 1) ≤ 2 ^ 53 * (2 : ℚ) ^ lastBit x := by
      have : (2 : ℚ) ^ 53 * (2 : ℚ) ^ lastBit x = (2 : ℚ) ^ (53 + lastBit x) := by rw [zpow_add₀ (by norm_num)]; norm_num
      rw [this, Nat.cast_ofNat]
      exact zpow_le_zpow_right₀ (by norm_num) (by unfold lastBit; omega)
    linarith
  rw [abs_le] at hlt ⊢
  constructor
  · have := nearestEven_mono (x := ((-2 ^ 53 : ℤ) : ℚ)) (by push_cast; exact hlt.1)
    rw [nearestEven_int] at this
    exact this
  · have := nearestEven_mono (y := ((2 ^ 53 : ℤ) : ℚ)) (by push_cast; exact hlt.2)
    rw [nearestEven_int] at this
    exact this

/-- there is no number in between -/
theorem rnd_le_of_le {x d : ℚ} (hd : Double d) (h : x ≤ d) : rnd x ≤ d := by
  have := rnd_mono h
  rwa [rnd_double hd] at this

theorem le_rnd_of_le {x d : ℚ} (hd : Double d) (h : d ≤ x) : d ≤ rnd x := by
  have := rnd_mono h
  rwa [rnd_double hd] at this

theorem double_neg {d : ℚ} (hd : Double d) : Double (-d) := by
  obtain ⟨m, e, hm, he, rfl⟩ := hd
  exact ⟨-m, e, by rwa [abs_neg], he, by push_cast; ring⟩

/-- no number lies between consecutive multiples of the last bit -/
theorem no_between {x d : ℚ} (hx : 0 < x) (hd : Double d) {f : ℤ} (f2 : x < (f + 1) * (2 : ℚ) ^ lastBit x)
    (h1 : f * (2 : ℚ) ^ lastBit x < d) (h2 : d < (f + 1) * (2 : ℚ) ^ lastBit x) : False := by
  have hp := two_pos (lastBit x)
  have multiple : ∀ k : ℤ, d = k * (2 : ℚ) ^ lastBit x → False := by
    intro k hk
    rw [hk] at h1 h2
    have a := lt_of_mul_lt_mul_right h1 hp.le
    have b := lt_of_mul_lt_mul_right h2 hp.le
    have a : f < k := by exact_mod_cast a
    have b : k < f + 1 := by exact_mod_cast b
    omega
  by_cases hs : lastBit x = -1074
  · obtain ⟨m, e, _, he, hde⟩ := hd
    obtain ⟨k, hk⟩ := pow_eq_mul (a := e) (b := lastBit x) (by omega)
    exact multiple (m * k) (by rw [hde]; push_cast; rw [mul_assoc, ← hk])
  · have hb : lastBit x = Int.log 2 x - 52 := by unfold lastBit at hs ⊢; rw [abs_of_pos hx] at hs ⊢; omega
    obtain ⟨k, hk⟩ := pow_eq_mul (a := Int.log 2 x) (b := lastBit x) (by omega)
    have h3 : (2 : ℚ) ^ Int.log 2 x ≤ x := by
      have := Int.zpow_log_le_self (b := 2) (by norm_num) hx
      simpa using this
    have hkf : k ≤ f := by
      rw [hk] at h3
      have := lt_of_mul_lt_mul_right (lt_of_le_of_lt h3 f2) hp.le
      have : k < f + 1 := by exact_mod_cast this
      omega
    have hd2 : (2 : ℚ) ^ Int.log 2 x ≤ d := by
      rw [hk]
      exact (mul_le_mul_of_nonneg_right (by exact_mod_cast hkf) hp.le).trans h1.le
    have hdpos : 0 < d := lt_of_lt_of_le (two_pos _) hd2
    have hl : Int.log 2 x ≤ Int.log 2 d := by
      refine (Int.zpow_le_iff_le_log (b := 2) (by norm_num) hdpos).1 ?_
      simpa using hd2
    obtain ⟨j, hj⟩ := pow_eq_mul (a := lastBit d) (b := lastBit x) (by unfold lastBit; rw [abs_of_pos hx, abs_of_pos hdpos]; omega)
    have hr := rnd_double hd
    unfold rnd at hr
    exact multiple (nearestEven (d / (2 : ℚ) ^ lastBit d) * j) (by
      push_cast
      rw [mul_assoc, ← hj]
      exact hr.symm)

theorem rnd_nearest_pos {x : ℚ} (hx : 0 < x) {d : ℚ} (hd : Double d) : |rnd x - x| ≤ |d - x| := by
  by_contra hlt
  push Not at hlt
  have hp := two_pos (lastBit x)
  set q := (2 : ℚ) ^ lastBit x with hq
  set f := ⌊x / q⌋ with hf
  have f1 : (f : ℚ) * q ≤ x := by have := Int.floor_le (x / q); rwa [le_div_iff₀ hp] at this
  have f2 : x < (f + 1 : ℚ) * q := by have := Int.lt_floor_add_one (x / q); rwa [div_lt_iff₀ hp] at this
  have near : ∀ k : ℤ, k * q ≤ x → |rnd x - x| ≤ x - k * q := by
    intro k hk
    have h1 := rnd_error x
    rw [← hq] at h1
    rcases le_or_gt (q / 2) (x - k * q) with h | h
    · exact h1.trans h
    · have : nearestEven (x / q) = k := by
        have hk' : ⌊x / q⌋ = k := by
          rw [Int.floor_eq_iff, le_div_iff₀ hp, div_lt_iff₀ hp]
          constructor <;> linarith
        have : x / q - k < 1 / 2 := by rw [sub_lt_iff_lt_add, div_lt_iff₀ hp]; linarith
        unfold nearestEven
        rw [hk', if_pos this]
      have e : rnd x = k * q := by unfold rnd; rw [← hq, this]
      rw [e, abs_sub_comm, abs_of_nonneg (by linarith)]
  have near' : ∀ k : ℤ, x ≤ k * q → |rnd x - x| ≤ k * q - x := by
    intro k hk
    have h1 := rnd_error x
    rw [← hq] at h1
    rcases le_or_gt (q / 2) (k * q - x) with h | h
    · exact h1.trans h
    · rcases eq_or_lt_of_le hk with he | hl
      · have : rnd x = x := rnd_of_multiple (k := k) (by rw [← hq]; exact he)
        rw [this, sub_self, abs_zero]; linarith
      · have : nearestEven (x / q) = k := by
          have hk' : ⌊x / q⌋ = k - 1 := by
            rw [Int.floor_eq_iff, le_div_iff₀ hp, div_lt_iff₀ hp]
            push_cast
            constructor <;> linarith
          have h2 : 1 / 2 < x / q - ((k - 1 : ℤ) : ℚ) := by
            rw [lt_sub_iff_add_lt, lt_div_iff₀ hp]; push_cast; linarith
          unfold nearestEven
          rw [hk', if_neg (not_lt.2 h2.le), if_pos h2]
          omega
        have e : rnd x = k * q := by unfold rnd; rw [← hq, this]
        rw [e, abs_of_nonneg (by linarith)]
  rcases le_total d x with h | h
  · have h1 : d ≤ rnd x := le_rnd_of_le hd h
    rw [abs_sub_comm d, abs_of_nonneg (by linarith : 0 ≤ x - d)] at hlt
    rcases le_or_gt d (f * q) with h2 | h2
    · have := near f f1; linarith
    · -- above the last multiple, so the multiple would be the result
      have : rnd x = f * q := by
        rcases nearestEven_cases (x / q) with h3 | h3
        · unfold rnd; rw [← hq, h3]
        · exfalso
          have e : rnd x = (f + 1 : ℚ) * q := by unfold rnd; rw [← hq, h3]; push_cast; rfl
          rw [e, abs_of_nonneg (by linarith)] at hlt
          exact no_between hx hd f2 h2 (by linarith)
      rw [this] at h1; linarith
  · have h1 : rnd x ≤ d := rnd_le_of_le hd h
    rw [abs_of_nonneg (by linarith : 0 ≤ d - x)] at hlt
    rcases le_or_gt ((f + 1 : ℚ) * q) d with h2 | h2
    · have := near' (f + 1) (by push_cast; exact f2.le)
      push_cast at this; linarith
    · have : rnd x = (f + 1 : ℚ) * q := by
        rcases nearestEven_cases (x / q) with h3 | h3
        · exfalso
          have e : rnd x = f * q := by unfold rnd; rw [← hq, h3]
          rw [e, abs_sub_comm, abs_of_nonneg (by linarith)] at hlt
          exact no_between hx hd f2 (lt_of_le_of_ne (by linarith) (fun e' => by rw [← e'] at hlt; linarith)) h2
        · unfold rnd; rw [← hq, h3]; push_cast; rfl
      rw [this] at h1; linarith

/-- results are at least as close as any other number -/
theorem rnd_nearest (x : ℚ) {d : ℚ} (hd : Double d) : |rnd x - x| ≤ |d - x| := by
  rcases lt_trichotomy x 0 with h | h | h
  · have := rnd_nearest_pos (x := -x) (by linarith) (double_neg hd)
    rw [rnd_neg] at this
    rwa [show -rnd x - -x = -(rnd x - x) by ring, show -d - -x = -(d - x) by ring, abs_neg, abs_neg] at this
  · subst h
    rw [rnd_zero, sub_self, abs_zero]
    exact abs_nonneg _
  · exact rnd_nearest_pos h hd

theorem double_int {k : ℤ} (h : |k| ≤ 2 ^ 53) : Double k := ⟨k, 0, h, by norm_num, by simp⟩
theorem double_half {k : ℤ} (h : |k| ≤ 2 ^ 53) : Double (k / 2) := ⟨k, -1, h, by norm_num, by rw [zpow_neg_one]; rfl⟩

/-- multiples of the smallest positive number don't underflow -/
theorem rnd_multiple_rel {x : ℚ} {m : ℤ} (hm : x = m * (2 : ℚ) ^ (-1074 : ℤ)) : |rnd x - x| ≤ |x| / 2 ^ 53 := by
  by_cases h : (2 : ℚ) ^ (-1022 : ℤ) ≤ |x|
  · exact rnd_rel h
  · push Not at h
    by_cases h0 : x = 0
    · rw [h0, rnd_zero, sub_self, abs_zero, zero_div]
    have hb : lastBit x = -1074 := by
      have : Int.log 2 |x| < -1022 := by
        refine (Int.lt_zpow_iff_log_lt (b := 2) (by norm_num) (abs_pos.2 h0)).1 ?_
        simpa using h
      unfold lastBit; omega
    rw [rnd_of_multiple (k := m) (by rw [hb]; exact hm), sub_self, abs_zero]
    exact div_nonneg (abs_nonneg _) (by norm_num)

theorem double_multiple {x : ℚ} (hx : Double x) : ∃ m : ℤ, x = m * (2 : ℚ) ^ (-1074 : ℤ) := by
  obtain ⟨m, e, _, he, rfl⟩ := hx
  obtain ⟨k, hk⟩ := pow_eq_mul he
  exact ⟨m * k, by rw [hk]; push_cast; ring⟩

/-- products with integers don't underflow -/
theorem rnd_mul_int_rel {x : ℚ} (hx : Double x) (k : ℤ) : |rnd (x * k) - x * k| ≤ |x * k| / 2 ^ 53 := by
  obtain ⟨m, hm⟩ := double_multiple hx
  exact rnd_multiple_rel (m := m * k) (by rw [hm]; push_cast; ring)

theorem rnd_add_rel {x y : ℚ} (hx : Double x) (hy : Double y) : |rnd (x + y) - (x + y)| ≤ |x + y| / 2 ^ 53 := by
  obtain ⟨m, hm⟩ := double_multiple hx
  obtain ⟨m', hm'⟩ := double_multiple hy
  exact rnd_multiple_rel (m := m + m') (by rw [hm, hm']; push_cast; ring)

end LGD.Ieee
