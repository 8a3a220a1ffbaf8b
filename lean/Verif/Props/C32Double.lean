import Verif.Props.C32
import Verif.Ieee.RoundLemmas
import Mathlib.Algebra.Order.Ring.Pow

/-!
# C32: load balancers with `double`

The theorems of `Verif.Props.C32` for the rounding of IEEE 754 numbers, including gradual underflow. Sums are assumed to be less
than 2^1024.
-/

namespace LGD.C32
open LGD.Balance LGD.Ieee

theorem rnd_ordered : Ordered rnd := ⟨fun _ _ h => rnd_mono h, fun x => rnd_double (double_rnd x), rnd_zero⟩

theorem nat_double {k : Nat} (h : k ≤ 2 ^ 53) : rnd (k : ℚ) = k := by
  have : Double ((k : ℤ) : ℚ) := double_int (by rw [abs_of_nonneg (by omega)]; exact_mod_cast h)
  exact_mod_cast rnd_double this

theorem tiny_small : (2 : ℚ) ^ (-1075 : ℤ) ≤ 1 / 2 ^ 100 := by
  have : (2 : ℚ) ^ (-1075 : ℤ) ≤ (2 : ℚ) ^ (-100 : ℤ) := zpow_le_zpow_right₀ (by norm_num) (by norm_num)
  refine this.trans (le_of_eq ?_)
  rw [zpow_neg, one_div]
  rfl

theorem rnd_mul_nat {x : ℚ} (hx : Double x) (h0 : 0 ≤ x) (k : Nat) :
    rnd (x * k) ≤ x * k * (1 + 1 / 2 ^ 53) ∧ x * k * (1 - 1 / 2 ^ 53) ≤ rnd (x * k) := by
  have h := rnd_mul_int_rel hx (k : ℤ)
  rw [Int.cast_natCast, abs_of_nonneg (mul_nonneg h0 (Nat.cast_nonneg k))] at h
  have := abs_le.1 h
  constructor <;> linarith [this.1, this.2]

/-- sums are at least as big as each number -/
theorem sum_ge (l : List ℚ) (hl : ∀ x ∈ l, Double x ∧ 0 ≤ x) :
    ∀ a, Double a → 0 ≤ a → ∀ x ∈ l, x ≤ l.foldl (fun a x => rnd (a + x)) a := by
  induction l with
  | nil => intro a _ _ x hx; cases hx
  | cons y l ih =>
    intro a ha h0 x hx
    have hy := hl y (List.mem_cons_self ..)
    have hl' : ∀ x ∈ l, Double x ∧ 0 ≤ x := fun x hx => hl x (List.mem_cons_of_mem _ hx)
    rw [List.foldl_cons]
    rcases List.mem_cons.1 hx with rfl | hx
    · exact (le_rnd_of_le hy.1 (by linarith)).trans (foldl_ge rnd_ordered l (fun x hx => (hl' x hx).2) _ (rnd_ordered.idem _))
    · exact ih hl' _ (double_rnd _) (rnd_nonneg (by linarith)) x hx

/-- **C32, initial weights with `double`.** For non-negative speeds, not all of them 0, and up to 2^51 items. -/
theorem initialWeights_double (items : Nat) (speeds : List ℚ) (hs : ∀ s ∈ speeds, Double s ∧ 0 ≤ s) (hpos : ∃ s ∈ speeds, 0 < s)
    (hi : items ≤ 2 ^ 51) : ∃ w, initialWeights rnd items speeds = .ok w ∧ Distribution speeds.length items w := by
  obtain ⟨s, hm, h0⟩ := hpos
  have hne : speeds ≠ [] := by rintro rfl; cases hm
  have hd0 : Double 0 := by simpa using double_int (k := 0) (by norm_num)
  have ht : 0 < sumQ rnd speeds := lt_of_lt_of_le h0 (sum_ge speeds hs 0 hd0 (le_refl _) s hm)
  have hD : Double (sumQ rnd speeds) := by
    have : ∀ (l : List ℚ) (a : ℚ), Double a → Double (l.foldl (fun a x => rnd (a + x)) a) := by
      intro l
      induction l with
      | nil => intro a h; exact h
      | cons x l ih => intro a _; exact ih _ (double_rnd _)
    exact this speeds 0 hd0
  have hlast : pos rnd items (sumQ rnd speeds) (sumQ rnd speeds) < items + 1 := by
    generalize sumQ rnd speeds = t at ht hD
    unfold pos
    rw [nat_double (by omega), mul_comm]
    obtain ⟨h1, _⟩ := rnd_mul_nat hD ht.le items
    have h2 : rnd (t * items) / t ≤ items * (1 + 1 / 2 ^ 53) := by
      rw [div_le_iff₀ ht]; linarith
    have h3 : 0 ≤ rnd (t * items) / t := div_nonneg (rnd_nonneg (mul_nonneg ht.le (Nat.cast_nonneg _))) ht.le
    have h4 := (abs_le.1 (rnd_abs_error (rnd (t * items) / t))).2
    rw [abs_of_nonneg h3] at h4
    have hi' : (items : ℚ) ≤ 2 ^ 51 := by exact_mod_cast hi
    have := tiny_small
    linarith
  obtain ⟨w, hw, hd⟩ := initialLoop_sum rnd_ordered items _ ht (by unfold M; omega) hlast speeds (fun s h => (hs s h).2) hne 0 0
    (le_refl _) rnd_zero (Nat.zero_le _) (Or.inr rfl) rfl
  refine ⟨w, ?_, hd⟩
  rw [initialWeights, if_neg hne, hw]

/-- **C32, OozeBalancer with `double`** (negation). With the default weight, for valid loads, `balance` throws: the parts of the
items add up to a bit less than a whole number, and one item gets lost. -/
theorem ooze_throws : ∃ (newLoadWeight : ℚ) (weights : List Nat) (loads : List ℚ), oozeOK newLoadWeight = true ∧
    newLoadWeight = rnd (rnd 1.6180339887498948482 / rnd 2.71828182845904523536) ∧ weights.length = loads.length ∧
    (∀ l ∈ loads, Double l ∧ 0 ≤ l) ∧ ooze rnd newLoadWeight weights loads = .logic ∧
    ∃ w, ooze id newLoadWeight weights loads = .ok w := by
  refine ⟨rnd (rnd 1.6180339887498948482 / rnd 2.71828182845904523536), [3, 0, 1], [1, 0, 1 / 2], by decide +kernel, rfl, rfl, ?_,
    by decide +kernel, [2, 0, 2], by decide +kernel⟩
  intro l hl
  simp only [List.mem_cons, List.not_mem_nil, or_false] at hl
  rcases hl with rfl | rfl | rfl
  · exact ⟨⟨1, 0, by norm_num, by norm_num, by norm_num⟩, by norm_num⟩
  · exact ⟨⟨0, 0, by norm_num, by norm_num, by norm_num⟩, by norm_num⟩
  · exact ⟨⟨1, -1, by norm_num, by norm_num, by norm_num⟩, by norm_num⟩

/-! ### RandomBalancer -/

/-- a sum has a relative error of one unit per addition -/
theorem sum_error (l : List ℚ) (hl : ∀ x ∈ l, Double x ∧ 0 ≤ x) : ∀ a, Double a → 0 ≤ a →
    (a + l.sum) * (1 - 1 / 2 ^ 53) ^ l.length ≤ l.foldl (fun a x => rnd (a + x)) a ∧
      l.foldl (fun a x => rnd (a + x)) a * (1 - 1 / 2 ^ 53) ^ l.length ≤ a + l.sum := by
  induction l with
  | nil => intro a _ _; simp
  | cons y l ih =>
    intro a ha h0
    have hy := hl y (List.mem_cons_self ..)
    have hl' : ∀ x ∈ l, Double x ∧ 0 ≤ x := fun x hx => hl x (List.mem_cons_of_mem _ hx)
    obtain ⟨i1, i2⟩ := ih hl' (rnd (a + y)) (double_rnd _) (rnd_nonneg (by linarith [hy.2]))
    have hs : 0 ≤ l.sum := List.sum_nonneg fun x hx => (hl' x hx).2
    have hr := rnd_add_rel ha hy.1
    rw [abs_of_nonneg (by linarith [hy.2] : 0 ≤ a + y)] at hr
    obtain ⟨r1, r2⟩ := abs_le.1 hr
    have hp : (0 : ℚ) ≤ (1 - 1 / 2 ^ 53) ^ l.length := pow_nonneg (by norm_num) _
    rw [List.foldl_cons, List.sum_cons, List.length_cons, pow_succ]
    generalize l.foldl (fun a x => rnd (a + x)) (rnd (a + y)) = F at *
    generalize ((1 - 1 / 2 ^ 53 : ℚ)) ^ l.length = p at *
    have hy0 := hy.2
    constructor
    · refine le_trans ?_ i1
      have : (a + (y + l.sum)) * (1 - 1 / 2 ^ 53) ≤ rnd (a + y) + l.sum := by linarith
      nlinarith
    · have h1 : (rnd (a + y) + l.sum) * (1 - 1 / 2 ^ 53) ≤ a + (y + l.sum) := by linarith
      have : F * (p * (1 - 1 / 2 ^ 53)) = F * p * (1 - 1 / 2 ^ 53) := by ring
      rw [this]
      refine le_trans ?_ h1
      exact mul_le_mul_of_nonneg_right i2 (by norm_num)

theorem scaled_spec (S : Nat) (R : ℚ) (hR : 0 < R) (A B : ℚ) (b : List ℚ)
    (h : ∀ x ∈ b, 0 ≤ rnd (rnd (x * rnd S) / R) ∧ rnd (rnd (x * rnd S) / R) < 2 ^ 63 ∧
      rnd (rnd (x * rnd S) / R) ≤ x * A + (2 : ℚ) ^ (-1075 : ℤ) ∧ x * B - (2 : ℚ) ^ (-1075 : ℤ) ≤ rnd (rnd (x * rnd S) / R)) :
    ∃ ret, scaled rnd S R b = .ok ret ∧ (ret.sum : ℚ) ≤ b.sum * A + b.length * (2 : ℚ) ^ (-1075 : ℤ) ∧
      b.sum * B - b.length * (2 : ℚ) ^ (-1075 : ℤ) ≤ ret.sum + b.length := by
  induction b with
  | nil => exact ⟨[], rfl, by simp, by simp⟩
  | cons x b ih =>
    obtain ⟨ret, h1, h2, h3⟩ := ih (fun y hy => h y (List.mem_cons_of_mem _ hy))
    obtain ⟨a0, a1, a2, a3⟩ := h x (List.mem_cons_self ..)
    obtain ⟨k, hk, hkf, _⟩ := viaLong_ok a0 a1
    have hk1 : (k : ℚ) ≤ rnd (rnd (x * rnd S) / R) := by
      have := Int.floor_le (rnd (rnd (x * rnd S) / R))
      rw [← hkf] at this; exact_mod_cast this
    have hk2 : rnd (rnd (x * rnd S) / R) ≤ k + 1 := by
      have := (Int.lt_floor_add_one (rnd (rnd (x * rnd S) / R))).le
      rw [← hkf] at this; exact_mod_cast this
    refine ⟨k :: ret, ?_, ?_, ?_⟩
    · unfold scaled
      rw [if_neg hR.ne', hk, h1]
      rfl
    · rw [List.sum_cons, List.sum_cons, List.length_cons]
      push_cast
      linarith
    · rw [List.sum_cons, List.sum_cons, List.length_cons]
      push_cast
      linarith

/-- **C32, RandomBalancer with `double`.** For all random numbers (non-negative, not all of them 0), as long as the number of items times
the number of ranks is below 2^52. -/
theorem random_double (base : List ℚ) (index : Nat → Nat) (w : List Nat) (hlen : base.length = w.length)
    (hb : ∀ x ∈ base, Double x ∧ 0 ≤ x) (hpos : ∃ x ∈ base, 0 < x) (hS : w.sum * (w.length + 3) ≤ 2 ^ 52) (hn : w.length < 2 ^ 31) :
    ∃ w', random rnd base index w = .ok w' ∧ Distribution w.length w.sum w' := by
  obtain ⟨s, hm, h0⟩ := hpos
  have hbne : base ≠ [] := by rintro rfl; cases hm
  have hne : w ≠ [] := by
    rintro rfl
    exact hbne (List.length_eq_zero_iff.mp (by simpa using hlen))
  have hd0 : Double 0 := by simpa using double_int (k := 0) (by norm_num)
  have hge := sum_ge base hb 0 hd0 (le_refl _)
  obtain ⟨e1, e2⟩ := sum_error base hb 0 hd0 (le_refl _)
  rw [zero_add, hlen] at e1 e2
  change _ ≤ sumQ rnd base at e1
  change sumQ rnd base * _ ≤ _ at e2
  change ∀ x ∈ base, x ≤ sumQ rnd base at hge
  have hR : 0 < sumQ rnd base := lt_of_lt_of_le h0 (hge s hm)
  have hT : 0 ≤ base.sum := List.sum_nonneg fun x hx => (hb x hx).2
  have hSle : w.sum ≤ 2 ^ 52 := le_trans (Nat.le_mul_of_pos_right _ (by omega)) hS
  have hp : 1 - (w.length : ℚ) / 2 ^ 53 ≤ (1 - 1 / 2 ^ 53) ^ w.length := by
    have := one_add_mul_le_pow (a := -(1 / 2 ^ 53 : ℚ)) (by norm_num) w.length
    have e : (1 : ℚ) + -(1 / 2 ^ 53) = 1 - 1 / 2 ^ 53 := by ring
    rw [e] at this
    linarith
  have hnq : (w.length : ℚ) ≤ 2 ^ 31 := by exact_mod_cast hn.le
  have hSq : (w.sum : ℚ) * (w.length + 3) ≤ 2 ^ 52 := by exact_mod_cast hS
  have hSq' : (w.sum : ℚ) ≤ 2 ^ 52 := by exact_mod_cast hSle
  have hS0 : (0 : ℚ) ≤ w.sum := Nat.cast_nonneg _
  have hn0 : (0 : ℚ) ≤ w.length := Nat.cast_nonneg _
  have ht := tiny_small
  have ht0 := two_pos (-1075)
  obtain ⟨ret, r1, r2, r3⟩ := scaled_spec w.sum (sumQ rnd base) hR (w.sum / sumQ rnd base * (1 + 1 / 2 ^ 53) ^ 2)
    (w.sum / sumQ rnd base * (1 - 1 / 2 ^ 53) ^ 2) base (by
      intro x hx
      rw [nat_double (by omega)]
      obtain ⟨hD, hx0⟩ := hb x hx
      obtain ⟨m1, m2⟩ := rnd_mul_nat hD hx0 w.sum
      have hq0 : 0 ≤ rnd (x * w.sum) / sumQ rnd base := div_nonneg (rnd_nonneg (mul_nonneg hx0 hS0)) hR.le
      have hq := abs_le.1 (rnd_abs_error (rnd (x * w.sum) / sumQ rnd base))
      rw [abs_of_nonneg hq0] at hq
      have q1 : rnd (x * w.sum) / sumQ rnd base ≤ x * (w.sum / sumQ rnd base) * (1 + 1 / 2 ^ 53) := by
        rw [div_le_iff₀ hR]
        have : x * (w.sum / sumQ rnd base) * (1 + 1 / 2 ^ 53) * sumQ rnd base = x * w.sum * (1 + 1 / 2 ^ 53) := by
          field_simp
        rwa [this]
      have q2 : x * (w.sum / sumQ rnd base) * (1 - 1 / 2 ^ 53) ≤ rnd (x * w.sum) / sumQ rnd base := by
        rw [le_div_iff₀ hR]
        have : x * (w.sum / sumQ rnd base) * (1 - 1 / 2 ^ 53) * sumQ rnd base = x * w.sum * (1 - 1 / 2 ^ 53) := by
          field_simp
        rwa [this]
      have a1 : rnd (rnd (x * w.sum) / sumQ rnd base) ≤ x * (w.sum / sumQ rnd base * (1 + 1 / 2 ^ 53) ^ 2) + (2 : ℚ) ^ (-1075 : ℤ) := by
        linarith [hq.2]
      have a2 : x * (w.sum / sumQ rnd base * (1 - 1 / 2 ^ 53) ^ 2) - (2 : ℚ) ^ (-1075 : ℤ) ≤ rnd (rnd (x * w.sum) / sumQ rnd base) := by
        linarith [hq.1]
      refine ⟨rnd_nonneg hq0, ?_, a1, a2⟩
      have : x * (w.sum / sumQ rnd base) ≤ w.sum := by
        rw [mul_div_assoc', div_le_iff₀ hR]
        have := mul_le_mul_of_nonneg_right (hge x hx) hS0
        linarith
      linarith)
  rw [hlen] at r2 r3
  set R := sumQ rnd base with hRdef
  set n : ℚ := (w.length : ℚ) with hndef
  set S : ℚ := (w.sum : ℚ) with hSdef
  set p : ℚ := (1 - 1 / 2 ^ 53) ^ w.length with hpdef
  -- the fractions of the total
  have hp0 : 0 < p := by linarith
  have f1 : base.sum / R * p ≤ 1 := by
    rw [div_mul_eq_mul_div, div_le_one hR]; exact e1
  have f2 : p ≤ base.sum / R := by
    rw [le_div_iff₀ hR]; linarith
  have g1 : base.sum * (S / R * (1 + 1 / 2 ^ 53) ^ 2) = base.sum / R * S * (1 + 1 / 2 ^ 53) ^ 2 := by ring
  have g2 : base.sum * (S / R * (1 - 1 / 2 ^ 53) ^ 2) = base.sum / R * S * (1 - 1 / 2 ^ 53) ^ 2 := by ring
  rw [g1] at r2
  rw [g2] at r3
  generalize base.sum / R = q at *
  have hnt : n * (2 : ℚ) ^ (-1075 : ℤ) ≤ 1 / 2 ^ 60 := by nlinarith
  have h2' : (ret.sum : ℚ) < S + 1 := by
    by_contra hcon
    push Not at hcon
    have : S + 1 - 1 / 2 ^ 60 ≤ q * S * (1 + 1 / 2 ^ 53) ^ 2 := by linarith
    have h5 : (S + 1 - 1 / 2 ^ 60) * p ≤ q * S * (1 + 1 / 2 ^ 53) ^ 2 * p := mul_le_mul_of_nonneg_right this hp0.le
    have h6 : q * S * (1 + 1 / 2 ^ 53) ^ 2 * p = q * p * (S * (1 + 1 / 2 ^ 53) ^ 2) := by ring
    have h7 : q * p * (S * (1 + 1 / 2 ^ 53) ^ 2) ≤ 1 * (S * (1 + 1 / 2 ^ 53) ^ 2) :=
      mul_le_mul_of_nonneg_right f1 (mul_nonneg hS0 (by norm_num))
    have h8 : (S + 1 - 1 / 2 ^ 60) * (1 - n / 2 ^ 53) ≤ (S + 1 - 1 / 2 ^ 60) * p :=
      mul_le_mul_of_nonneg_left hp (by linarith)
    nlinarith
  have h3' : S < ret.sum + 2 ^ 32 := by
    have h5 : (1 - n / 2 ^ 53) * (S * (1 - 1 / 2 ^ 53) ^ 2) ≤ q * (S * (1 - 1 / 2 ^ 53) ^ 2) :=
      mul_le_mul_of_nonneg_right (hp.trans f2) (mul_nonneg hS0 (by norm_num))
    nlinarith
  have h2'' : ret.sum < w.sum + 1 := by rw [hSdef] at h2'; exact_mod_cast h2'
  have h3'' : w.sum < ret.sum + 2 ^ 32 := by rw [hSdef] at h3'; exact_mod_cast h3'
  exact random_sum rnd base index w ret hlen hne (by omega) r1 (by omega) (by omega)

/-! Non-vacuity -/

example : initialWeights rnd 10 [1, rnd (2 / 10), 0, rnd (1 / 3)] = .ok [6, 1, 0, 3] ∧
    random rnd [rnd (1 / 2), rnd (1 / 3), rnd (1 / 5)] (fun i => i * 7) [3, 4, 5] = .ok [5, 4, 3] := by
  decide +kernel

example : ooze rnd (1 / 2) [10, 0, 4] [1 / 2, 0, 1 / 4] = .ok [7, 2, 5] := by decide +kernel

end LGD.C32
