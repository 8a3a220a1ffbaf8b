import Verif.Tune.ParamModel
import Mathlib.Algebra.Order.Floor.Ring
import Mathlib.Tactic.Linarith
import Mathlib.Tactic.FieldSimp
import Mathlib.Tactic.Push
import Mathlib.Tactic.NormNum

/-!
# Parameters stay in their domain
-/

namespace LGD.Tune

theorem trunc_int (z : Int) : trunc (z : ℚ) = z := by
  unfold trunc
  split <;> simp

theorem trunc_nonneg {q : ℚ} (h : 0 ≤ q) : 0 ≤ trunc q ∧ (trunc q : ℚ) ≤ q := by
  unfold trunc
  rw [if_pos h]
  exact ⟨Int.floor_nonneg.2 h, Int.floor_le q⟩

theorem conv_nonneg (ty : Ty) {q : ℚ} (h : 0 ≤ q) : 0 ≤ conv ty q ∧ conv ty q ≤ q := by
  cases ty with
  | int =>
    refine ⟨?_, (trunc_nonneg h).2⟩
    have : ((0 : Int) : ℚ) ≤ (trunc q : ℚ) := Int.cast_le.2 (trunc_nonneg h).1
    simpa [conv] using this
  | dbl => exact ⟨h, le_refl _⟩

/-- A sensible domain: intervals have positive extent and a positive granularity below it, sets have elements. -/
def Ok : Param → Prop
  | .ival p => 0 < p.gran ∧ p.gran ≤ p.maximum - p.minimum
  | .dset p => 0 < p.size

/-- the value belongs to the domain, and is the one `getValue()` stands for -/
def Within : Param → Prop
  | .ival p => 0 ≤ p.index ∧ p.current = p.minimum + p.index ∧ p.minimum ≤ p.current ∧ p.current < p.maximum
  | .dset p => 0 ≤ p.index ∧ p.index < p.size ∧ p.current = some p.index.toNat

/-- the same domain -/
def Same : Param → Param → Prop
  | .ival p, .ival q => p.ty = q.ty ∧ p.minimum = q.minimum ∧ p.maximum = q.maximum ∧ p.gran = q.gran
  | .dset p, .dset q => p.size = q.size
  | _, _ => False

theorem Same.refl (p : Param) : Same p p := by cases p <;> simp [Same]

theorem Same.trans {p q r : Param} (h1 : Same p q) (h2 : Same q r) : Same p r := by
  cases p <;> cases q <;> cases r <;> simp_all [Same]

theorem same_add (p : Param) (s : ℚ) : Same p (p.add s) := by cases p <;> simp [Same, Param.add, Ival.place]

theorem same_set (p : Param) (s : ℚ) : Same p (p.setValue s) := by cases p <;> simp [Same, Param.setValue, Ival.place]

theorem Same.ok {p q : Param} (h : Same p q) (hp : Ok p) : Ok q := by
  cases p <;> cases q <;> simp_all [Same, Ok]

theorem sanitize_range {p : Param} (hg : 0 < p.gran) (hm : p.gran ≤ p.max) (x : ℚ) : 0 ≤ p.sanitize x ∧ p.sanitize x < p.max := by
  unfold Param.sanitize
  dsimp only
  split
  · split <;> constructor <;> linarith
  · split
    · constructor <;> linarith
    · constructor <;> linarith

theorem place_within (p : Ival) (h : Ok (.ival p)) (x : ℚ) : Within (.ival (p.place x)) := by
  have hg : 0 < p.gran := h.1
  have key : ∀ y, 0 ≤ conv p.ty ((Param.ival p).sanitize y) ∧ conv p.ty ((Param.ival p).sanitize y) < p.maximum - p.minimum := by
    intro y
    have h1 := sanitize_range (p := .ival p) hg h.2 y
    have h2 := conv_nonneg p.ty h1.1
    refine ⟨h2.1, lt_of_le_of_lt h2.2 ?_⟩
    exact h1.2
  have : (p.place x).index = conv p.ty ((Param.ival p).sanitize (conv p.ty (trunc (conv p.ty x / p.gran) * p.gran))) := by
    unfold Ival.place; simp [hg]
  have hk := key (conv p.ty (trunc (conv p.ty x / p.gran) * p.gran))
  rw [← this] at hk
  refine ⟨hk.1, rfl, ?_, ?_⟩
  · change p.minimum ≤ p.minimum + (p.place x).index; linarith
  · change p.minimum + (p.place x).index < p.maximum; linarith

theorem dset_within (p : DSet) (h : 0 < p.size) (x : Int) :
    Within (.dset { p with index := trunc ((Param.dset p).sanitize x), current := p.read (trunc ((Param.dset p).sanitize x)) }) := by
  have h1 := sanitize_range (p := .dset p) (x := x) (by norm_num [Param.gran]) (by show (1 : ℚ) ≤ p.size; exact_mod_cast h)
  have h2 := trunc_nonneg h1.1
  have h3 : trunc ((Param.dset p).sanitize x) < p.size := by
    have : (trunc ((Param.dset p).sanitize x) : ℚ) < p.size := lt_of_le_of_lt h2.2 h1.2
    exact_mod_cast this
  exact ⟨h2.1, h3, if_pos ⟨h2.1, h3⟩⟩

theorem add_within {p : Param} (h : Ok p) (s : ℚ) : Within (p.add s) := by
  cases p with
  | ival p => exact place_within p h _
  | dset p => exact dset_within p h _

theorem set_within {p : Param} (h : Ok p) (s : ℚ) : Within (p.setValue s) := by
  cases p with
  | ival p => exact place_within p h _
  | dset p => exact dset_within p h _

/-! ## Values on a grid -/

/-- values are multiples of the granularity, the extent as well; intervals of integers have an integral granularity -/
def Aligned (p : Param) : Prop :=
  Within p ∧ 0 < p.gran ∧ ∃ m : Nat, 0 < m ∧ p.max = m * p.gran ∧ ∃ j : Nat, j < m ∧ p.value = j * p.gran ∧
    match p with
    | .ival p => p.ty = .int → ∃ z : Int, p.gran = z
    | .dset _ => True

/-- only the value differs -/
def Param.at : Param → Nat → Param
  | .ival p, j => .ival { p with index := j * p.gran, current := p.minimum + j * p.gran }
  | .dset p, j => .dset { p with index := j, current := some j }

theorem conv_mul {p : Ival} (hz : p.ty = .int → ∃ z : Int, p.gran = z) (k : Int) : conv p.ty (k * p.gran) = k * p.gran := by
  cases h : p.ty with
  | dbl => rfl
  | int =>
    obtain ⟨z, hz⟩ := hz h
    rw [hz]
    have : ((k : ℚ) * (z : ℚ)) = ((k * z : Int) : ℚ) := by push_cast; ring
    rw [this]
    change ((trunc ((k * z : Int) : ℚ) : Int) : ℚ) = _
    rw [trunc_int]

/-- where step `k` of the grid ends up -/
def clampTo (m : Nat) (k : Int) : Nat := if k < 0 then 0 else if (m : Int) ≤ k then m - 1 else k.toNat

theorem sanitize_grid {p : Param} {m : Nat} (hg : 0 < p.gran) (hm : 0 < m) (hmax : p.max = m * p.gran) (k : Int) : p.sanitize (k * p.gran) = clampTo m k * p.gran := by
  have hneg : ((k : ℚ) * p.gran < 0) ↔ k < 0 := by
    constructor
    · intro h
      by_contra hc
      have : (0 : ℚ) ≤ k := by exact_mod_cast not_lt.1 hc
      have := mul_nonneg this hg.le
      linarith
    · intro h
      have : (k : ℚ) < 0 := by exact_mod_cast h
      exact mul_neg_of_neg_of_pos this hg
  have hle : ∀ z : Int, p.max ≤ z * p.gran ↔ (m : Int) ≤ z := by
    intro z
    rw [hmax, mul_le_mul_iff_left₀ hg]
    exact_mod_cast Iff.rfl
  unfold Param.sanitize clampTo
  dsimp only
  by_cases h0 : k < 0
  · rw [if_pos (hneg.2 h0), if_pos h0]
    have : ¬ p.max ≤ 0 := by
      rw [hmax, not_le]
      have : (0 : ℚ) < m := by exact_mod_cast hm
      exact mul_pos this hg
    rw [if_neg this]
    simp
  · rw [if_neg (fun h => h0 (hneg.1 h)), if_neg h0]
    by_cases h1 : (m : Int) ≤ k
    · rw [if_pos ((hle k).2 h1), if_pos h1, hmax, Nat.cast_sub (by omega)]
      push_cast
      ring
    · rw [if_neg (fun h => h1 ((hle k).1 h)), if_neg h1]
      congr 1
      have : ((k.toNat : Int) : ℚ) = k := by rw [Int.toNat_of_nonneg (by omega)]
      exact_mod_cast this.symm

theorem clampTo_lt {m : Nat} (hm : 0 < m) (k : Int) : clampTo m k < m := by
  unfold clampTo
  split
  · omega
  · split <;> omega

theorem Param.at_gran (p : Param) (j : Nat) : (p.at j).gran = p.gran ∧ (p.at j).max = p.max ∧ (p.at j).value = j * p.gran ∧ ∀ i, (p.at j).at i = p.at i := by
  cases p <;> simp [Param.at, Param.gran, Param.max, Param.value]

/-- the grid step an update ends at -/
theorem add_grid {p : Param} (h : Aligned p) (s : ℚ) : ∃ k : Int, ∀ m : Nat, p.max = m * p.gran → p.add s = p.at (clampTo m k) := by
  obtain ⟨-, hg, m', hm', hmax', j, hj, hv, hz⟩ := h
  have uniq : ∀ m : Nat, p.max = m * p.gran → m = m' := by
    intro m hm
    rw [hmax'] at hm
    have := mul_right_cancel₀ hg.ne' hm
    exact_mod_cast this.symm
  cases p with
  | ival p =>
    refine ⟨trunc (conv p.ty (p.index + s) / p.gran), fun m hm => ?_⟩
    obtain rfl := uniq m hm
    have hg' : 0 < p.gran := hg
    simp only [Param.add, Ival.place, if_pos hg']
    have e1 := conv_mul hz (trunc (conv p.ty (p.index + s) / p.gran))
    have e2 := sanitize_grid (p := .ival p) hg hm' hm (trunc (conv p.ty (p.index + s) / p.gran))
    change (Param.ival p).sanitize (_ * p.gran) = _ * p.gran at e2
    rw [e1, e2]
    have e3 := conv_mul hz (clampTo m (trunc (conv p.ty (p.index + s) / p.gran)))
    have e4 : ((clampTo m (trunc (conv p.ty (p.index + s) / p.gran)) : Int) : ℚ) = (clampTo m (trunc (conv p.ty (p.index + s) / p.gran)) : ℚ) := by push_cast; rfl
    rw [e4] at e3
    rw [e3]
    rfl
  | dset p =>
    refine ⟨trunc (p.index + s), fun m hm => ?_⟩
    obtain rfl := uniq m hm
    have e2 := sanitize_grid (p := .dset p) hg hm' hm (trunc (p.index + s))
    change (Param.dset p).sanitize (_ * 1) = _ * 1 at e2
    rw [mul_one, mul_one] at e2
    have hsz : p.size = m := by
      change (p.size : ℚ) = m * 1 at hm
      rw [mul_one] at hm
      exact_mod_cast hm
    have e3 : trunc ((Param.dset p).sanitize (trunc (p.index + s))) = (clampTo m (trunc (p.index + s)) : Int) := by
      rw [e2]
      have : ((clampTo m (trunc (p.index + s)) : Nat) : ℚ) = ((clampTo m (trunc (p.index + s)) : Int) : ℚ) := by push_cast; rfl
      rw [this, trunc_int]
    have hlt := clampTo_lt hm' (trunc (p.index + s))
    simp only [Param.add, e3, Param.at]
    congr 2
    unfold DSet.read
    rw [if_pos ⟨by omega, by rw [hsz]; exact_mod_cast hlt⟩]
    simp

theorem at_aligned {p : Param} (h : Aligned p) {m j : Nat} (hm : p.max = m * p.gran) (hj : j < m) : Aligned (p.at j) := by
  obtain ⟨hw, hg, m', hm', hmax', j', hj', hv, hz⟩ := h
  obtain ⟨a1, a2, a3, -⟩ := p.at_gran j
  have hm0 : 0 < m := by omega
  refine ⟨?_, by rw [a1]; exact hg, m, hm0, by rw [a1, a2]; exact hm, j, hj, by rw [a3, a1], ?_⟩
  · cases p with
    | ival p =>
      change p.maximum - p.minimum = m * p.gran at hm
      have hg' : 0 < p.gran := hg
      have h1 : (0 : ℚ) ≤ j * p.gran := mul_nonneg (Nat.cast_nonneg _) hg'.le
      have h2 : (j : ℚ) * p.gran < m * p.gran := by
        rw [mul_lt_mul_iff_left₀ hg']; exact_mod_cast hj
      refine ⟨h1, rfl, ?_, ?_⟩
      · change p.minimum ≤ p.minimum + j * p.gran; linarith
      · change p.minimum + j * p.gran < p.maximum; linarith
    | dset p =>
      change (p.size : ℚ) = m * 1 at hm
      rw [mul_one] at hm
      have : p.size = m := by exact_mod_cast hm
      exact ⟨Int.natCast_nonneg _, by change (j : Int) < p.size; omega, by simp⟩
  · cases p <;> exact hz

/-- an aligned parameter is where it is -/
theorem at_self {p : Param} (h : Aligned p) {j : Nat} (hv : p.value = j * p.gran) : p.at j = p := by
  obtain ⟨hw, hg, -⟩ := h
  cases p with
  | ival p =>
    change p.index = j * p.gran at hv
    have hc : p.current = p.minimum + p.index := hw.2.1
    simp only [Param.at, ← hv, ← hc]
  | dset p =>
    change (p.index : ℚ) = j * 1 at hv
    rw [mul_one] at hv
    have hi : p.index = j := by exact_mod_cast hv
    have hc : p.current = some p.index.toNat := hw.2.2
    rw [hi] at hc
    simp only [Int.toNat_natCast] at hc
    simp only [Param.at, ← hi, ← hc]

theorem add_aligned {p : Param} (h : Aligned p) (s : ℚ) : Aligned (p.add s) := by
  obtain ⟨k, hk⟩ := add_grid h s
  obtain ⟨-, hg, m, hm, hmax, -⟩ := id h
  rw [hk m hmax]
  exact at_aligned h hmax (clampTo_lt hm k)

/-- steps of one granularity -/
theorem add_gran {p : Param} (h : Aligned p) {m j : Nat} (hmax : p.max = m * p.gran) (hv : p.value = j * p.gran) (d : Int) :
    p.add (d * p.gran) = p.at (clampTo m (j + d)) := by
  obtain ⟨-, hg, m', hm', hmax', j', hj', hv', hz⟩ := h
  have hm : m = m' := by
    rw [hmax'] at hmax
    have := mul_right_cancel₀ hg.ne' hmax
    exact_mod_cast this.symm
  subst hm
  cases p with
  | ival p =>
    have hg' : 0 < p.gran := hg
    have hv : p.index = j * p.gran := hv
    simp only [Param.add, Ival.place, if_pos hg']
    have e0 : p.index + d * (Param.ival p).gran = ((j + d : Int) : ℚ) * p.gran := by
      change p.index + d * p.gran = _
      rw [hv]; push_cast; ring
    have e5 : conv p.ty (((j + d : Int) : ℚ) * p.gran) / p.gran = ((j + d : Int) : ℚ) := by
      rw [conv_mul hz, mul_div_assoc, div_self hg'.ne', mul_one]
    rw [e0, e5, trunc_int, conv_mul hz]
    have e2 := sanitize_grid (p := .ival p) hg hm' hmax (j + d)
    change (Param.ival p).sanitize (_ * p.gran) = _ * p.gran at e2
    rw [e2]
    have e3 := conv_mul hz (clampTo m (j + d))
    have e4 : ((clampTo m (j + d) : Int) : ℚ) = (clampTo m (j + d) : ℚ) := by push_cast; rfl
    rw [e4] at e3
    rw [e3]
    rfl
  | dset p =>
    have hi : p.index = j := by
      change (p.index : ℚ) = j * 1 at hv
      rw [mul_one] at hv; exact_mod_cast hv
    have hsz : p.size = m := by
      change (p.size : ℚ) = m * 1 at hmax
      rw [mul_one] at hmax
      exact_mod_cast hmax
    have e0 : trunc ((p.index : ℚ) + d * (Param.dset p).gran) = j + d := by
      change trunc ((p.index : ℚ) + d * 1) = j + d
      rw [hi, mul_one]
      have : (((j : Nat) : Int) : ℚ) + d = ((j + d : Int) : ℚ) := by push_cast; ring
      rw [this, trunc_int]
    have e2 := sanitize_grid (p := .dset p) hg hm' hmax (j + d)
    change (Param.dset p).sanitize (_ * 1) = _ * 1 at e2
    rw [mul_one, mul_one] at e2
    have e3 : trunc ((Param.dset p).sanitize ((j + d : Int) : ℚ)) = (clampTo m (j + d) : Int) := by
      rw [e2]
      have : ((clampTo m (j + d) : Nat) : ℚ) = ((clampTo m (j + d) : Int) : ℚ) := by push_cast; rfl
      rw [this, trunc_int]
    have hlt := clampTo_lt hm' (j + d)
    simp only [Param.add, e0, e3, Param.at]
    congr 2
    unfold DSet.read
    rw [if_pos ⟨by omega, by rw [hsz]; exact_mod_cast hlt⟩]
    simp

/-- a step of one granularity which changed something can be undone -/
theorem add_undo {p : Param} (h : Aligned p) (d : Int) (hd : d = 1 ∨ d = -1) (hne : (p.add (d * p.gran)).value ≠ p.value) :
    (p.add (d * p.gran)).add (-d * p.gran) = p := by
  obtain ⟨-, hg, m, hm, hmax, j, hj, hv, -⟩ := id h
  have e1 := add_gran h hmax hv d
  rw [e1] at hne ⊢
  obtain ⟨a1, a2, a3, a4⟩ := p.at_gran (clampTo m (j + d))
  rw [a3, hv] at hne
  have hc : clampTo m (j + d) ≠ j := fun e => hne (by rw [e])
  have hA := at_aligned h hmax (clampTo_lt hm (j + d))
  have e2 := add_gran hA (m := m) (j := clampTo m (j + d)) (by rw [a2, a1]; exact hmax) (by rw [a3, a1]) (-d)
  rw [a1] at e2
  push_cast at e2 ⊢
  rw [e2, a4]
  have : clampTo m ((clampTo m (j + d) : Nat) + -d) = j := by
    unfold clampTo at hc ⊢
    rcases hd with rfl | rfl
    · by_cases h1 : (m : Int) ≤ j + 1
      · exfalso; apply hc; rw [if_neg (by omega), if_pos h1]; omega
      · rw [if_neg (show ¬ ((j : Int) + 1 < 0) by omega), if_neg h1]
        rw [if_neg (by omega), if_neg (by omega)]; omega
    · by_cases h1 : (j : Int) + -1 < 0
      · exfalso; apply hc; rw [if_pos h1]; omega
      · rw [if_neg h1, if_neg (show ¬ ((m : Int) ≤ j + -1) by omega)]
        rw [if_neg (by omega), if_neg (by omega)]; omega
  rw [this]
  exact at_self h hv

/-- a step which leaves the value alone leaves the parameter alone -/
theorem add_same {p : Param} (h : Aligned p) (s : ℚ) (he : (p.add s).value = p.value) : p.add s = p := by
  obtain ⟨k, hk⟩ := add_grid h s
  obtain ⟨-, hg, m, hm, hmax, -⟩ := id h
  rw [hk m hmax] at he ⊢
  refine at_self h ?_
  rw [← he, (p.at_gran _).2.2.1]

end LGD.Tune
