import Verif.Misc.RandomLemmas
import Mathlib.Tactic.IntervalCases

/-!
# Injectivity of the steps of the Mersenne Twister
-/

namespace LGD.Rand

theorem bits_of_ge (x : W) {i : Nat} (h : 32 ≤ i) : x.getLsbD i = false := BitVec.getLsbD_of_ge x i h

theorem bxor_cancel {a b c : Bool} (h : (a ^^ c) = (b ^^ c)) : a = b := by
  cases a <;> cases b <;> cases c <;> simp_all

/-- `x ^ (x >> k)` -/
theorem right_injective {k : Nat} (hk : 0 < k) {x y : W} (h : x ^^^ (x >>> k) = y ^^^ (y >>> k)) : x = y := by
  have key : ∀ d i, 32 ≤ i + d → x.getLsbD i = y.getLsbD i := by
    intro d
    induction d using Nat.strong_induction_on with
    | _ d ih =>
      intro i hi
      by_cases h32 : 32 ≤ i
      · rw [bits_of_ge x h32, bits_of_ge y h32]
      · have e := congrArg (fun z : W => z.getLsbD i) h
        simp only [BitVec.getLsbD_xor, BitVec.getLsbD_ushiftRight] at e
        rw [ih (d - 1) (by omega) (k + i) (by omega)] at e
        exact bxor_cancel e
  exact BitVec.eq_of_getLsbD_eq (fun i hi => key 32 i (by omega))

/-- `x ^ ((x << k) & m)` -/
theorem left_injective {k : Nat} (hk : 0 < k) {m x y : W} (h : x ^^^ ((x <<< k) &&& m) = y ^^^ ((y <<< k) &&& m)) : x = y := by
  have key : ∀ i, x.getLsbD i = y.getLsbD i := by
    intro i
    induction i using Nat.strong_induction_on with
    | _ i ih =>
      by_cases h32 : 32 ≤ i
      · rw [bits_of_ge x h32, bits_of_ge y h32]
      · have e := congrArg (fun z : W => z.getLsbD i) h
        simp only [BitVec.getLsbD_xor, BitVec.getLsbD_and, BitVec.getLsbD_shiftLeft] at e
        by_cases hik : i < k
        · simpa [hik] using e
        · rw [ih (i - k) (by omega)] at e
          exact bxor_cancel e
  exact BitVec.eq_of_getLsbD_eq (fun i _ => key i)

theorem temper_injective {x y : W} (h : temper x = temper y) : x = y :=
  right_injective (k := 11) (by omega) (left_injective (k := 7) (by omega) (left_injective (k := 15) (by omega) (right_injective (k := 18) (by omega) h)))

theorem bit_mix (a b : W) (i : Nat) : (mixBits a b).getLsbD i = if i = 31 then a.getLsbD 31 else b.getLsbD i := by
  unfold mixBits
  by_cases h : i < 32
  · interval_cases i <;> simp
  · have : i ≠ 31 := by omega
    rw [if_neg this, bits_of_ge _ (by omega), bits_of_ge _ (by omega)]

theorem odd_iff (b : W) : (b &&& 1 = 1) ↔ b.getLsbD 0 = true := by
  constructor
  · intro h
    have := congrArg (fun z : W => z.getLsbD 0) h
    simpa using this
  · intro h
    apply BitVec.eq_of_getLsbD_eq
    intro i hi
    rw [BitVec.getLsbD_and]
    cases i with
    | zero => rw [h]; rfl
    | succ i =>
      have : (1 : W).getLsbD (i + 1) = false := by
        have hi' : i < 31 := by omega
        interval_cases i <;> rfl
      rw [this, Bool.and_false]

theorem twist_top (a b : W) : (twist a b).getLsbD 31 = b.getLsbD 0 := by
  unfold twist
  rw [BitVec.getLsbD_xor, BitVec.getLsbD_ushiftRight, bits_of_ge _ (by omega), Bool.false_xor]
  by_cases h : b &&& 1 = 1
  · rw [if_pos h, (odd_iff b).1 h]; rfl
  · rw [if_neg h]
    have : ¬ b.getLsbD 0 = true := fun hh => h ((odd_iff b).2 hh)
    simp at this ⊢
    exact this

theorem twist_injective {a b c d : W} (h : twist a b = twist c d) : a.getLsbD 31 = c.getLsbD 31 ∧ ∀ i, i < 31 → b.getLsbD i = d.getLsbD i := by
  have h0 : b.getLsbD 0 = d.getLsbD 0 := by rw [← twist_top a b, ← twist_top c d, h]
  have hodd : (b &&& 1 = 1) ↔ (d &&& 1 = 1) := by rw [odd_iff, odd_iff, h0]
  have hmix : ∀ i, i < 31 → (mixBits a b).getLsbD (1 + i) = (mixBits c d).getLsbD (1 + i) := by
    intro i hi
    have e := congrArg (fun z : W => z.getLsbD i) h
    simp only [twist, BitVec.getLsbD_xor, BitVec.getLsbD_ushiftRight] at e
    rw [if_congr hodd rfl rfl] at e
    exact bxor_cancel e
  refine ⟨?_, ?_⟩
  · have := hmix 30 (by omega)
    rw [bit_mix, bit_mix, if_pos rfl, if_pos rfl] at this
    exact this
  · intro i hi
    cases i with
    | zero => exact h0
    | succ i =>
      have := hmix i (by omega)
      rw [bit_mix, bit_mix, if_neg (by omega), if_neg (by omega)] at this
      rwa [Nat.add_comm]

theorem seed_injective {a b : W} (h : a * 69069 ^ 228 = b * 69069 ^ 228) : a = b := by
  have hi : (69069 : W) ^ 228 * 2117473009 = 1 := by decide +kernel
  have := congrArg (· * (2117473009 : W)) h
  simp only [BitVec.mul_assoc, hi] at this
  simpa using this

/-- four of the first 229 numbers determine the seed -/
theorem start_injective {x y : Nat → W} (hx : Twisted x) (hy : Twisted y) {a b : W} (hxa : ∀ i, i < N → x i = a * 69069 ^ i) (hyb : ∀ i, i < N → y i = b * 69069 ^ i)
    (h : ∀ i, i < 229 → temper (x (i + N)) = temper (y (i + N))) : a = b := by
  have e : ∀ i, i < 229 → x (i + N) = y (i + N) := fun i hi => temper_injective (h i hi)
  have t : ∀ k, 227 ≤ k → k < 229 → twist (x k) (x (k + 1)) = twist (y k) (y (k + 1)) := by
    intro k h1 h2
    have ex := hx k
    have ey := hy k
    rw [e k h2, ey] at ex
    rw [show k + M = (k - 227) + N by unfold M N; omega, e (k - 227) (by omega)] at ex
    have := congrArg (fun z : W => y (k - 227 + N) ^^^ z) ex
    simp only [← BitVec.xor_assoc, BitVec.xor_self, BitVec.zero_xor] at this
    exact this.symm
  have l := (twist_injective (t 227 (by omega) (by omega))).2
  have u := (twist_injective (t 228 (by omega) (by omega))).1
  have h228 : x 228 = y 228 := by
    apply BitVec.eq_of_getLsbD_eq
    intro i hi
    by_cases h31 : i < 31
    · exact l i h31
    · rw [show i = 31 by omega]; exact u
  rw [hxa 228 (by decide), hyb 228 (by decide)] at h228
  exact seed_injective h228

end LGD.Rand
