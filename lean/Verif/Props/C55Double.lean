import Verif.Store.MeshlessDoubleModel
import Verif.Props.C55
import Verif.Ieee.RoundLemmas

/-!
# C55 – `MeshlessAdapter` with `double`s
-/

namespace LGD.C55
open LGD.Store LGD.Meshless LGD.Ieee

/-- Without rounding these are the functions of the exact model. -/
theorem double_exact (n : Nat) (wraps : Nat → Bool) (a : Adapter) (g : Grid (List (Pos × Int))) (vs : List (Pos × Int)) (p : Pos) :
    MeshlessDouble.insertAll id n wraps a g vs = insertAll n wraps a g vs ∧ MeshlessDouble.search id n wraps a g p = search n wraps a g p ∧
      MeshlessDouble.discreteDim id a.dims a.bs = discreteDim a.dims a.bs := by
  refine ⟨rfl, ?_, rfl⟩
  unfold MeshlessDouble.search search
  congr 1
  funext is
  induction is with
  | nil => rfl
  | cons i is ih => rw [MeshlessDouble.searchLoop, searchLoop, ih]; rfl

/-- **C55, negation.** The search misses vertices which are closer than the box size, even if distances are computed like the code does. Here, the domain
is `[0, 1]²`, the box size 0.1, the vertices are on a horizontal line; their x coordinates are the predecessors of 0.8 and 0.9. They
end up in the container cells 7 and 9. -/
theorem search_misses (wraps : Nat → Bool) (hw : wraps = (fun _ => true) ∨ wraps = fun _ => false) :
    ∃ (a : Adapter) (p q : Pos), MeshlessDouble.make rnd 1 (fun _ => 1) (rnd (1 / 10)) = some a ∧
      (∀ k, Double (p k) ∧ Double (q k) ∧ 0 ≤ p k ∧ p k < 1 ∧ 0 ≤ q k ∧ q k < 1) ∧
      Near 1 wraps (fun _ => 1) (rnd (1 / 10)) p q ∧ MeshlessDouble.distance2 rnd 1 wraps a p q < rnd (rnd (1 / 10) * rnd (1 / 10)) ∧
      ((MeshlessDouble.insertAll rnd 1 wraps a (newGrid 1 a) [(q, 7)]).bind fun g => MeshlessDouble.search rnd 1 wraps a g p) = some (false, []) := by
  have e1 : rnd (1 / 10) = 3602879701896397 / 36028797018963968 := by decide +kernel
  refine ⟨⟨fun _ => 1, rnd (1 / 10), MeshlessDouble.discreteDim rnd (fun _ => 1) (rnd (1 / 10))⟩,
    fun k => if k = 0 then 7205759403792793 / 9007199254740992 else 1 / 2,
    fun k => if k = 0 then 2026619832316723 / 2251799813685248 else 1 / 2, ?_, ?_, ?_, ?_, ?_⟩
  · unfold MeshlessDouble.make
    rw [if_neg (by decide +kernel)]
  · intro k
    have d0 : Double (7205759403792793 / 9007199254740992) := ⟨7205759403792793, -53, by norm_num, by norm_num, by norm_num [zpow_neg]⟩
    have d1 : Double (2026619832316723 / 2251799813685248) := ⟨2026619832316723, -51, by norm_num, by norm_num, by norm_num [zpow_neg]⟩
    have d2 : Double (1 / 2) := ⟨1, -1, by norm_num, by norm_num, by norm_num [zpow_neg]⟩
    by_cases hk : k = 0
    · simp only [hk, if_true]
      exact ⟨d0, d1, by norm_num, by norm_num, by norm_num, by norm_num⟩
    · simp only [hk, if_false]
      exact ⟨d2, d2, by norm_num, by norm_num, by norm_num, by norm_num⟩
  · refine ⟨fun _ => 0, fun _ _ => rfl, ?_⟩
    rw [e1]
    norm_num [Finset.sum_range_succ]
  · rcases hw with rfl | rfl <;> decide +kernel
  · rcases hw with rfl | rfl <;> decide +kernel

theorem scaled_error {bs p : ℚ} (hb : 0 < bs) (hb' : bs ≤ 2 ^ 1000) (hp : 0 ≤ p) :
    |rnd (p * MeshlessDouble.scale rnd bs) - p / bs| ≤ p / bs / 2 ^ 51 + (2 : ℚ) ^ (-1075 : ℤ) := by
  have h1 : (0 : ℚ) < 1 / bs := by positivity
  have hs : |rnd (1 / bs) - 1 / bs| ≤ 1 / bs / 2 ^ 53 := by
    have := rnd_rel (x := 1 / bs) (by
      rw [abs_of_pos h1, le_div_iff₀ hb]
      have : (2 : ℚ) ^ (-1022 : ℤ) * bs ≤ (2 : ℚ) ^ (-1022 : ℤ) * 2 ^ 1000 := mul_le_mul_of_nonneg_left hb' (two_pos _).le
      refine this.trans ?_
      rw [← zpow_natCast, ← zpow_add₀ (by norm_num)]
      exact zpow_le_one_of_nonpos₀ (by norm_num) (by norm_num))
    rwa [abs_of_pos h1] at this
  unfold MeshlessDouble.scale
  generalize rnd (1 / bs) = s at *
  have hs' := abs_le.1 hs
  have hs0 : 0 ≤ s := by linarith [hs'.1]
  have he := rnd_abs_error (p * s)
  rw [abs_of_nonneg (mul_nonneg hp hs0)] at he
  have he' := abs_le.1 he
  have e : p / bs = p * (1 / bs) := by ring
  rw [e]
  have m1 : p * s ≤ p * (1 / bs + 1 / bs / 2 ^ 53) := mul_le_mul_of_nonneg_left (by linarith [hs'.2]) hp
  have m2 : p * (1 / bs - 1 / bs / 2 ^ 53) ≤ p * s := mul_le_mul_of_nonneg_left (by linarith [hs'.1]) hp
  have m3 : 0 ≤ p * (1 / bs) := mul_nonneg hp h1.le
  rw [abs_le]
  constructor <;> linarith [he'.1, he'.2]

theorem tiny_small : (2 : ℚ) ^ (-1075 : ℤ) ≤ 1 / 2 ^ 100 := by
  have : (2 : ℚ) ^ (-1075 : ℤ) ≤ (2 : ℚ) ^ (-100 : ℤ) := zpow_le_zpow_right₀ (by norm_num) (by norm_num)
  refine this.trans (le_of_eq ?_)
  rw [zpow_neg, one_div]
  rfl

theorem cells_axis {w : Bool} {D bs p q : ℚ} (hb : 0 < bs) (hb' : bs ≤ 2 ^ 1000) (hp : 0 ≤ p ∧ p ≤ D) (hq : 0 ≤ q ∧ q ≤ D)
    (hd : ⌊rnd (D * MeshlessDouble.scale rnd bs)⌋ ≤ MAX_SIZE) (h : axisDist w D p q ≤ bs * (1 - 1 / 2 ^ 30)) :
    Adj w (max 1 ⌊rnd (D * MeshlessDouble.scale rnd bs)⌋)
      (min (max 1 ⌊rnd (D * MeshlessDouble.scale rnd bs)⌋ - 1) (trunc (rnd (p * MeshlessDouble.scale rnd bs))))
      (min (max 1 ⌊rnd (D * MeshlessDouble.scale rnd bs)⌋ - 1) (trunc (rnd (q * MeshlessDouble.scale rnd bs)))) := by
  have hD0 : 0 ≤ D := hp.1.trans hp.2
  have ep := abs_le.1 (scaled_error hb hb' hp.1)
  have eq := abs_le.1 (scaled_error hb hb' hq.1)
  have eD := abs_le.1 (scaled_error hb hb' hD0)
  have hs0 : 0 ≤ MeshlessDouble.scale rnd bs := rnd_nonneg (by positivity)
  have p0 : 0 ≤ rnd (p * MeshlessDouble.scale rnd bs) := rnd_nonneg (mul_nonneg hp.1 hs0)
  have q0 : 0 ≤ rnd (q * MeshlessDouble.scale rnd bs) := rnd_nonneg (mul_nonneg hq.1 hs0)
  have pD : rnd (p * MeshlessDouble.scale rnd bs) ≤ rnd (D * MeshlessDouble.scale rnd bs) :=
    rnd_mono (mul_le_mul_of_nonneg_right hp.2 hs0)
  have qD : rnd (q * MeshlessDouble.scale rnd bs) ≤ rnd (D * MeshlessDouble.scale rnd bs) :=
    rnd_mono (mul_le_mul_of_nonneg_right hq.2 hs0)
  have tp : trunc (rnd (p * MeshlessDouble.scale rnd bs)) = ⌊rnd (p * MeshlessDouble.scale rnd bs)⌋ := if_pos p0
  have tq : trunc (rnd (q * MeshlessDouble.scale rnd bs)) = ⌊rnd (q * MeshlessDouble.scale rnd bs)⌋ := if_pos q0
  rw [tp, tq]
  generalize rnd (p * MeshlessDouble.scale rnd bs) = a at *
  generalize rnd (q * MeshlessDouble.scale rnd bs) = b at *
  generalize rnd (D * MeshlessDouble.scale rnd bs) = d at *
  have ht := tiny_small
  have hN : D / bs ≤ 300002 := by
    have h1 := Int.lt_floor_add_one d
    have h2 : (⌊d⌋ : ℚ) ≤ 300000 := by unfold MAX_SIZE at hd; exact_mod_cast hd
    have h3 : 0 ≤ D / bs := div_nonneg hD0 hb.le
    linarith [eD.1]
  have hpN : p / bs ≤ D / bs := div_le_div_of_nonneg_right hp.2 hb.le
  have hqN : q / bs ≤ D / bs := div_le_div_of_nonneg_right hq.2 hb.le
  have close : ∀ {x : ℚ}, x ≤ bs * (1 - 1 / 2 ^ 30) → x / bs ≤ 1 - 1 / 2 ^ 30 := by
    intro x hx
    rw [div_le_iff₀ hb]; linarith
  have fa := Int.floor_le a
  have fa' := Int.lt_floor_add_one a
  have fb := Int.floor_le b
  have fb' := Int.lt_floor_add_one b
  have fd := Int.floor_le d
  have fd' := Int.lt_floor_add_one d
  have direct : |p - q| ≤ bs * (1 - 1 / 2 ^ 30) → |min (max 1 ⌊d⌋ - 1) ⌊a⌋ - min (max 1 ⌊d⌋ - 1) ⌊b⌋| ≤ 1 := by
    intro hc
    have h1 := abs_le.1 hc
    have h2 := close (x := p - q) h1.2
    have h3 := close (x := q - p) (by linarith [h1.1])
    rw [sub_div] at h2 h3
    have g1 : (⌊a⌋ : ℚ) < ⌊b⌋ + 2 := by linarith [ep.2, eq.1]
    have g2 : (⌊b⌋ : ℚ) < ⌊a⌋ + 2 := by linarith [ep.1, eq.2]
    have g1' : ⌊a⌋ < ⌊b⌋ + 2 := by exact_mod_cast g1
    have g2' : ⌊b⌋ < ⌊a⌋ + 2 := by exact_mod_cast g2
    rw [abs_le]
    omega
  unfold axisDist at h
  split at h
  · rename_i hw
    rcases min_le_iff.mp h with h | h
    · exact Or.inl (direct h)
    · refine Or.inr ⟨hw, ?_⟩
      have a0 := Int.floor_nonneg.2 p0
      have b0 := Int.floor_nonneg.2 q0
      have aD := Int.floor_le_floor pD
      have bD := Int.floor_le_floor qD
      rcases le_total q p with hc | hc
      · rw [abs_of_nonneg (by linarith)] at h
        have h1 := close (x := D - (p - q)) h
        rw [sub_div, sub_div] at h1
        have h4 : 0 ≤ q / bs := div_nonneg hq.1 hb.le
        have g1 : (⌊b⌋ : ℚ) < 1 := by linarith [eq.2]
        have g2 : (⌊d⌋ : ℚ) < ⌊a⌋ + 2 := by linarith [eD.2, ep.1]
        have g1' : ⌊b⌋ < 1 := by exact_mod_cast g1
        have g2' : ⌊d⌋ < ⌊a⌋ + 2 := by exact_mod_cast g2
        have hb0 : ⌊b⌋ = 0 := by omega
        rw [hb0, abs_of_nonneg (by omega)]
        omega
      · rw [abs_of_nonpos (by linarith)] at h
        have h1 := close (x := D - -(p - q)) h
        have e : (D - -(p - q)) / bs = D / bs - q / bs + p / bs := by ring
        rw [e] at h1
        have h4 : 0 ≤ p / bs := div_nonneg hp.1 hb.le
        have g1 : (⌊a⌋ : ℚ) < 1 := by linarith [ep.2]
        have g2 : (⌊d⌋ : ℚ) < ⌊b⌋ + 2 := by linarith [eD.2, eq.1]
        have g1' : ⌊a⌋ < 1 := by exact_mod_cast g1
        have g2' : ⌊d⌋ < ⌊b⌋ + 2 := by exact_mod_cast g2
        have ha0 : ⌊a⌋ = 0 := by omega
        rw [ha0, abs_of_nonpos (by omega)]
        omega
  · exact Or.inl (direct h)

/-- **C55 with `double`s.** Vertices whose distance is smaller than the box size by a billionth are stored in the same or in adjacent container
cells (in the direction of each axis), also across periodic borders: this is what `search` misses at most. -/
theorem cells_double (n : Nat) (wraps : Nat → Bool) (dims : Pos) {bs : ℚ} (hb : 0 < bs) (hb' : bs ≤ 2 ^ 1000) (a : Adapter)
    (ha : MeshlessDouble.make rnd n dims bs = some a) (p q : Pos) (hp : ∀ k, k ≤ n → 0 ≤ p k ∧ p k ≤ dims k) (hq : ∀ k, k ≤ n → 0 ≤ q k ∧ q k ≤ dims k)
    (k : Nat) (hk : k ≤ n) (z : Int) (hz : wraps k = false → z = 0) (h : |p k - q k + z * dims k| ≤ bs * (1 - 1 / 2 ^ 30)) :
    0 ≤ MeshlessDouble.posToCoord rnd a p k ∧ MeshlessDouble.posToCoord rnd a p k < a.dd k ∧
      (|MeshlessDouble.posToCoord rnd a p k - MeshlessDouble.posToCoord rnd a q k| ≤ 1 ∨
        wraps k = true ∧ a.dd k - |MeshlessDouble.posToCoord rnd a p k - MeshlessDouble.posToCoord rnd a q k| ≤ 1) := by
  unfold MeshlessDouble.make at ha
  split at ha
  · cases ha
  · rename_i hm
    injection ha with ha
    subst ha
    have h1 := (prod_pos (n := n) (dd := MeshlessDouble.discreteDim rnd dims bs) (fun k _ => le_max_left _ _)).2 k hk
    have hd : ⌊rnd (dims k * MeshlessDouble.scale rnd bs)⌋ ≤ MAX_SIZE := by
      have h2 : ⌊rnd (dims k * MeshlessDouble.scale rnd bs)⌋ ≤ MeshlessDouble.discreteDim rnd dims bs k := le_max_right _ _
      omega
    have hs0 : 0 ≤ MeshlessDouble.scale rnd bs := rnd_nonneg (by positivity)
    have p0 : 0 ≤ rnd (p k * MeshlessDouble.scale rnd bs) := rnd_nonneg (mul_nonneg (hp k hk).1 hs0)
    have hA : axisDist (wraps k) (dims k) (p k) (q k) ≤ bs * (1 - 1 / 2 ^ 30) := by
      have := axisDist_le (w := wraps k) (fun _ => hp k hk) (fun _ => hq k hk) z hz
      exact (le_abs_self _).trans ((sq_le_sq.1 this).trans h)
    refine ⟨?_, ?_, cells_axis hb hb' (hp k hk) (hq k hk) hd hA⟩
    · have tp : trunc (rnd (p k * MeshlessDouble.scale rnd bs)) = ⌊rnd (p k * MeshlessDouble.scale rnd bs)⌋ := if_pos p0
      have := Int.floor_nonneg.2 p0
      unfold MeshlessDouble.posToCoord MeshlessDouble.discreteDim
      simp only
      rw [tp]
      omega
    · unfold MeshlessDouble.posToCoord
      simp only
      omega

/-- non-vacuity: the cells of 0.7 and 0.79, and of 0.05 and 0.96 across the border -/
example : (MeshlessDouble.make rnd 1 (fun _ => 1) (rnd (1 / 10))).map (fun a =>
    ([rnd (7 / 10), rnd (79 / 100), rnd (5 / 100), rnd (96 / 100)].map fun x => MeshlessDouble.posToCoord rnd a (fun _ => x) 0, a.dd 0)) =
    some ([7, 7, 0, 9], 10) := by decide +kernel

end LGD.C55
