import Verif.Store.MeshlessModel
import Verif.Props.C33
import Mathlib.Algebra.Order.Floor.Ring
import Mathlib.Algebra.Order.BigOperators.Group.Finset
import Mathlib.Algebra.BigOperators.Intervals
import Mathlib.Algebra.Order.Archimedean.Basic
import Mathlib.Tactic.Linarith
import Mathlib.Tactic.Positivity
import Mathlib.Tactic.FieldSimp

/-!
# Lemmas on `MeshlessAdapter`
-/

namespace LGD.Meshless
open LGD.Store LGD.C13 LGD.C14

variable {n : Nat} {wraps : Nat → Bool}

theorem trunc_diff {x y : ℚ} (h : |x - y| < 1) : |trunc x - trunc y| ≤ 1 := by
  obtain ⟨h1, h2⟩ := abs_lt.mp h
  have fx := Int.floor_le x
  have fx' := Int.lt_floor_add_one x
  have fy := Int.floor_le y
  have fy' := Int.lt_floor_add_one y
  have cx := Int.le_ceil x
  have cx' := Int.ceil_lt_add_one x
  have cy := Int.le_ceil y
  have cy' := Int.ceil_lt_add_one y
  unfold trunc
  rw [abs_le]
  split <;> split
  · constructor
    · have : (⌊y⌋ : ℚ) < ⌊x⌋ + 2 := by linarith
      have : ⌊y⌋ < ⌊x⌋ + 2 := by exact_mod_cast this
      omega
    · have : (⌊x⌋ : ℚ) < ⌊y⌋ + 2 := by linarith
      have : ⌊x⌋ < ⌊y⌋ + 2 := by exact_mod_cast this
      omega
  · rename_i a b
    have : ⌊x⌋ < 1 := by rw [Int.floor_lt]; push_cast; linarith
    have : 0 ≤ ⌊x⌋ := Int.floor_nonneg.mpr a
    have : -1 < ⌈y⌉ := by rw [Int.lt_ceil]; push_cast; linarith
    have : ⌈y⌉ ≤ 0 := by rw [Int.ceil_le]; push_cast; linarith
    omega
  · rename_i a b
    have : ⌊y⌋ < 1 := by rw [Int.floor_lt]; push_cast; linarith
    have : 0 ≤ ⌊y⌋ := Int.floor_nonneg.mpr b
    have : -1 < ⌈x⌉ := by rw [Int.lt_ceil]; push_cast; linarith
    have : ⌈x⌉ ≤ 0 := by rw [Int.ceil_le]; push_cast; linarith
    omega
  · constructor
    · have : (⌈y⌉ : ℚ) < ⌈x⌉ + 2 := by linarith
      have : ⌈y⌉ < ⌈x⌉ + 2 := by exact_mod_cast this
      omega
    · have : (⌈x⌉ : ℚ) < ⌈y⌉ + 2 := by linarith
      have : ⌈x⌉ < ⌈y⌉ + 2 := by exact_mod_cast this
      omega

/-- coordinate of the container cell on one axis -/
def cellOf (D bs p : ℚ) : Int := min (max 1 ⌊D * (1 / bs)⌋ - 1) (trunc (p * (1 / bs)))

theorem cellOf_direct {D bs p q : ℚ} (hb : 0 < bs) (h : |p - q| < bs) : |cellOf D bs p - cellOf D bs q| ≤ 1 := by
  have : |p * (1 / bs) - q * (1 / bs)| < 1 := by
    rw [← sub_mul, abs_mul, abs_of_pos (by positivity : (0 : ℚ) < 1 / bs), mul_one_div, div_lt_one hb]
    exact h
  have := trunc_diff this
  unfold cellOf
  rw [abs_le] at this ⊢
  omega

theorem cellOf_range {D bs p : ℚ} (hb : 0 < bs) (h : 0 ≤ p) : 0 ≤ cellOf D bs p ∧ cellOf D bs p < max 1 ⌊D * (1 / bs)⌋ := by
  have : 0 ≤ trunc (p * (1 / bs)) := by
    have : 0 ≤ p * (1 / bs) := by positivity
    unfold trunc
    rw [if_pos this]
    exact Int.floor_nonneg.mpr this
  unfold cellOf
  omega

/-- close to the lower border -/
theorem cellOf_low {D bs p : ℚ} (hb : 0 < bs) (h : 0 ≤ p) (h' : p < bs) : cellOf D bs p = 0 := by
  have h1 : 0 ≤ p * (1 / bs) := by positivity
  have h2 : p * (1 / bs) < 1 := by rw [mul_one_div, div_lt_one hb]; exact h'
  have : trunc (p * (1 / bs)) = 0 := by
    unfold trunc
    rw [if_pos h1, Int.floor_eq_zero_iff]
    exact ⟨h1, h2⟩
  unfold cellOf
  omega

/-- close to the upper border -/
theorem cellOf_high {D bs p : ℚ} (hb : 0 < bs) (h : 0 ≤ p) (h' : D - p < bs) : cellOf D bs p = max 1 ⌊D * (1 / bs)⌋ - 1 := by
  have h1 : 0 ≤ p * (1 / bs) := by positivity
  have h2 : D * (1 / bs) - 1 < p * (1 / bs) := by
    have : (D - p) * (1 / bs) < 1 := by rw [mul_one_div, div_lt_one hb]; exact h'
    linarith
  have f := Int.floor_le (D * (1 / bs))
  have : ⌊D * (1 / bs)⌋ - 1 ≤ ⌊p * (1 / bs)⌋ := by
    rw [Int.le_floor]; push_cast; linarith
  have := Int.floor_nonneg.mpr h1
  unfold cellOf trunc
  rw [if_pos h1]
  omega

/-- distance on one axis, as in the loop of `distance2` -/
def axisDist (w : Bool) (D p q : ℚ) : ℚ := if w then min |p - q| (D - |p - q|) else |p - q|

/-- two container cells are neighbors on an axis with `dd` cells -/
def Adj (w : Bool) (dd x y : Int) : Prop := |x - y| ≤ 1 ∨ (w = true ∧ dd - |x - y| ≤ 1)

theorem adj_of_near {w : Bool} {D bs p q : ℚ} (hb : 0 < bs) (hp : w = true → 0 ≤ p ∧ p ≤ D) (hq : w = true → 0 ≤ q ∧ q ≤ D)
    (h : axisDist w D p q < bs) : Adj w (max 1 ⌊D * (1 / bs)⌋) (cellOf D bs p) (cellOf D bs q) := by
  unfold axisDist at h
  split at h
  · rename_i hw
    rcases min_lt_iff.mp h with h | h
    · exact Or.inl (cellOf_direct hb h)
    · refine Or.inr ⟨hw, ?_⟩
      obtain ⟨p1, p2⟩ := hp hw
      obtain ⟨q1, q2⟩ := hq hw
      rcases le_total q p with hc | hc
      · rw [abs_of_nonneg (by linarith)] at h
        rw [cellOf_low hb q1 (by linarith), cellOf_high hb p1 (by linarith), sub_zero, abs_of_nonneg (by omega)]
        omega
      · rw [abs_of_nonpos (by linarith)] at h
        rw [cellOf_low hb p1 (by linarith), cellOf_high hb q1 (by linarith), zero_sub, abs_neg, abs_of_nonneg (by omega)]
        omega
  · exact Or.inl (cellOf_direct hb h)

/-- the neighbor is reached via one step, across the border on periodic axes -/
theorem adj_step {w : Bool} {dd x y : Int} (hx : w = true → 0 ≤ x ∧ x < dd) (hy : w = true → 0 ≤ y ∧ y < dd) (h : Adj w dd x y) :
    ∃ e : Int, -1 ≤ e ∧ e ≤ 1 ∧ if w then y % dd = (x + e) % dd else y = x + e := by
  rcases h with h | ⟨hw, h⟩
  · rw [abs_le] at h
    refine ⟨y - x, by omega, by omega, ?_⟩
    rw [add_sub_cancel]
    split <;> rfl
  · obtain ⟨x0, x1⟩ := hx hw
    obtain ⟨y0, y1⟩ := hy hw
    rcases le_total x y with hc | hc
    · rw [abs_of_nonpos (by omega)] at h
      obtain rfl : x = 0 := by omega
      obtain rfl : y = dd - 1 := by omega
      refine ⟨-1, by omega, by omega, ?_⟩
      rw [if_pos hw, Int.emod_eq_emod_iff_emod_sub_eq_zero]
      simp
    · rw [abs_of_nonneg (by omega)] at h
      obtain rfl : y = 0 := by omega
      obtain rfl : x = dd - 1 := by omega
      refine ⟨1, by omega, by omega, ?_⟩
      rw [if_pos hw, Int.emod_eq_emod_iff_emod_sub_eq_zero]
      simp

theorem foldl_sum (f : Nat → ℚ) (m : Nat) (s : ℚ) : (List.range m).foldl (fun s k => s + f k) s = s + ∑ k ∈ Finset.range m, f k := by
  induction m with
  | zero => simp
  | succ m ih => rw [List.range_succ, List.foldl_append, ih, Finset.sum_range_succ]; simp [add_assoc]

theorem distance2_eq (a : Adapter) (p q : Pos) :
    distance2 n wraps a p q = ∑ k ∈ Finset.range (n + 1), axisDist (wraps k) (a.dims k) (p k) (q k) ^ 2 := by
  unfold distance2
  rw [show (∑ k ∈ Finset.range (n + 1), axisDist (wraps k) (a.dims k) (p k) (q k) ^ 2) =
    0 + ∑ k ∈ Finset.range (n + 1), axisDist (wraps k) (a.dims k) (p k) (q k) ^ 2 by rw [zero_add], ← foldl_sum]
  simp only [axisDist, pow_two]

/-- an adapter as set up by its constructor or `resetBoxSize` -/
structure AOK (n : Nat) (a : Adapter) : Prop where
  bs : 0 < a.bs
  dd : ∀ k, k ≤ n → a.dd k = max 1 ⌊a.dims k * (1 / a.bs)⌋

/-- the vertex is within the simulation space on all periodic axes -/
def Inside (n : Nat) (wraps : Nat → Bool) (dims p : Pos) : Prop := ∀ k, k ≤ n → wraps k = true → 0 ≤ p k ∧ p k ≤ dims k

theorem posToCoord_eq {a : Adapter} (ha : AOK n a) (p : Pos) (k : Nat) (hk : k ≤ n) : posToCoord a p k = cellOf (a.dims k) a.bs (p k) := by
  unfold posToCoord cellOf
  rw [ha.dd k hk]

theorem AOK.pos {a : Adapter} (ha : AOK n a) (k : Nat) (hk : k ≤ n) : 0 < a.dd k := by
  rw [ha.dd k hk]; omega

theorem coord_range {a : Adapter} (ha : AOK n a) {p : Pos} (hp : Inside n wraps a.dims p) (k : Nat) (hk : k ≤ n) (hw : wraps k = true) :
    0 ≤ posToCoord a p k ∧ posToCoord a p k < a.dd k := by
  rw [posToCoord_eq ha p k hk, ha.dd k hk]
  exact cellOf_range ha.bs (hp k hk hw).1

theorem coord_onePeriod {a : Adapter} (ha : AOK n a) {p : Pos} (hp : Inside n wraps a.dims p) (e : Crd) (he : ∀ k, k ≤ n → -1 ≤ e k ∧ e k ≤ 1) :
    OnePeriod n wraps a.dd (fun k => posToCoord a p k + e k) := fun k hk hw => by
  have := coord_range ha hp k hk hw
  have := he k hk
  show -a.dd k ≤ posToCoord a p k + e k ∧ posToCoord a p k + e k < 2 * a.dd k
  omega

/-- contents of a container grid after the insertion of `vs` -/
structure Holds (n : Nat) (wraps : Nat → Bool) (a : Adapter) (g : Grid (List (Pos × Int))) (vs : List (Pos × Int)) : Prop where
  ok : GridOK n g
  dim : g.dim = a.dd
  read : ∀ d, OnePeriod n wraps a.dd d → ∃ l, gridRead n wraps g d = some l ∧ ∀ v, v ∈ l ↔ v ∈ vs ∧ Same n wraps a.dd (posToCoord a v.1) d

theorem holds_new (hn : n ≤ 2) {a : Adapter} (ha : AOK n a) : Holds n wraps a (newGrid n a) [] := by
  obtain ⟨h1, h2⟩ := C33.fresh (wraps := wraps) hn a.dd ha.pos ([] : List (Pos × Int)) []
  refine ⟨h1, rfl, fun d hd => ⟨[], ?_, by simp⟩⟩
  by_cases ho : Outside n wraps a.dd d
  · exact (h2 d hd).1 ho
  · exact (h2 d hd).2 ho

theorem same_symm {dim a b : Crd} (h : Same n wraps dim a b) : Same n wraps dim b a := by
  rcases h with ⟨h1, h2⟩ | ⟨h1, h2, h3⟩
  · exact Or.inl ⟨h2, h1⟩
  · refine Or.inr ⟨h2, h1, fun k hk => ?_⟩
    have := h3 k hk
    split at this <;> rename_i hw <;> simp only [hw, if_true, if_false, Bool.false_eq_true] <;> exact this.symm

theorem same_refl (dim a : Crd) : Same n wraps dim a a := by
  by_cases h : Outside n wraps dim a
  · exact Or.inl ⟨h, h⟩
  · exact Or.inr ⟨h, h, fun k _ => by split <;> rfl⟩

theorem same_trans {dim a b c : Crd} (h : Same n wraps dim a b) (h' : Same n wraps dim b c) : Same n wraps dim a c := by
  rcases h with ⟨h1, h2⟩ | ⟨h1, h2, h3⟩
  · rcases h' with ⟨k1, k2⟩ | ⟨k1, k2, k3⟩
    · exact Or.inl ⟨h1, k2⟩
    · exact absurd h2 k1
  · rcases h' with ⟨k1, k2⟩ | ⟨k1, k2, k3⟩
    · exact absurd k1 h2
    · refine Or.inr ⟨h1, k2, fun k hk => ?_⟩
      have a1 := h3 k hk
      have a2 := k3 k hk
      split at a1 <;> rename_i hw <;> simp only [hw, if_true, if_false, Bool.false_eq_true] at a2 ⊢ <;> exact a1.trans a2

theorem holds_insert (hn : n ≤ 2) {a : Adapter} (ha : AOK n a) {g : Grid (List (Pos × Int))} {vs : List (Pos × Int)} (h : Holds n wraps a g vs)
    (v : Pos × Int) (hv : Inside n wraps a.dims v.1) : ∃ g', insert n wraps a g v.1 v.2 = some g' ∧ Holds n wraps a g' (vs ++ [v]) := by
  have hp : OnePeriod n wraps a.dd (posToCoord a v.1) := by
    have := coord_onePeriod ha hv (fun _ => 0) (fun _ _ => by omega)
    simpa using this
  obtain ⟨l, hl, hm⟩ := h.read _ hp
  obtain ⟨g', w1, w2, w3, -, -, w4⟩ := write_spec hn h.ok (c := posToCoord a v.1) (by rw [h.dim]; exact hp) (l ++ [(v.1, v.2)])
  refine ⟨g', by simp [insert, hl, w1], w2, w3.trans h.dim, fun d hd => ?_⟩
  rw [h.dim] at w4
  obtain ⟨w5, w6⟩ := w4 d hd
  by_cases hs : Same n wraps a.dd (posToCoord a v.1) d
  · refine ⟨_, w5 hs, fun u => ?_⟩
    simp only [List.mem_append, List.mem_singleton, hm]
    constructor
    · rintro (⟨h1, h2⟩ | rfl)
      · exact ⟨Or.inl h1, same_trans h2 hs⟩
      · exact ⟨Or.inr rfl, hs⟩
    · rintro ⟨h1 | rfl, h2⟩
      · exact Or.inl ⟨h1, same_trans h2 (same_symm hs)⟩
      · exact Or.inr rfl
  · obtain ⟨l', hl', hm'⟩ := h.read d hd
    refine ⟨l', (w6 hs).trans hl', fun u => ?_⟩
    rw [hm']
    simp only [List.mem_append, List.mem_singleton]
    constructor
    · rintro ⟨h1, h2⟩; exact ⟨Or.inl h1, h2⟩
    · rintro ⟨h1 | rfl, h2⟩
      · exact ⟨h1, h2⟩
      · exact absurd h2 hs

theorem holds_insertAll (hn : n ≤ 2) {a : Adapter} (ha : AOK n a) (vs : List (Pos × Int)) (hv : ∀ v ∈ vs, Inside n wraps a.dims v.1) :
    ∀ {g : Grid (List (Pos × Int))} {done : List (Pos × Int)}, Holds n wraps a g done →
      ∃ g', insertAll n wraps a g vs = some g' ∧ Holds n wraps a g' (done ++ vs) := by
  induction vs with
  | nil => intro g done h; exact ⟨g, rfl, by simpa using h⟩
  | cons v vs ih =>
    intro g done h
    obtain ⟨g1, h1, h2⟩ := holds_insert hn ha h v (hv v (by simp))
    obtain ⟨g2, h3, h4⟩ := ih (fun u hu => hv u (by simp [hu])) h2
    refine ⟨g2, ?_, by simpa using h4⟩
    simp only [insertAll, List.foldlM_cons, h1] at h3 ⊢
    exact h3

theorem outside_shift {dim x y : Crd} (h : ∀ k, k ≤ n → wraps k = false → x k = y k) (ho : Outside n wraps dim x) : Outside n wraps dim y := by
  obtain ⟨k, h1, h2, h3⟩ := ho
  exact ⟨k, h1, h2, by rwa [← h k h1 h2]⟩

/-- if the container cells are neighbors on every axis, then the vertex is found in the Moore neighborhood -/
theorem step_of_adj {a : Adapter} (ha : AOK n a) {p q : Pos} (hp : Inside n wraps a.dims p) (hq : Inside n wraps a.dims q)
    (h : ∀ k, k ≤ n → Adj (wraps k) (a.dd k) (posToCoord a p k) (posToCoord a q k)) :
    ∃ e : Crd, (∀ k, k ≤ n → -1 ≤ e k ∧ e k ≤ 1) ∧ Same n wraps a.dd (posToCoord a q) (fun k => posToCoord a p k + e k) := by
  have step : ∀ k, ∃ e : Int, k ≤ n → (-1 ≤ e ∧ e ≤ 1) ∧
      if wraps k then posToCoord a q k % a.dd k = (posToCoord a p k + e) % a.dd k else posToCoord a q k = posToCoord a p k + e := fun k => by
    by_cases hk : k ≤ n
    · obtain ⟨e, h1, h2, h3⟩ := adj_step (fun hw => coord_range ha hp k hk hw) (fun hw => coord_range ha hq k hk hw) (h k hk)
      exact ⟨e, fun _ => ⟨⟨h1, h2⟩, h3⟩⟩
    · exact ⟨0, fun h => absurd h hk⟩
  choose e he using step
  refine ⟨e, fun k hk => (he k hk).1, ?_⟩
  have hc : ∀ k, k ≤ n → wraps k = false → posToCoord a q k = posToCoord a p k + e k := fun k hk hw => by
    have := (he k hk).2
    rwa [hw, if_neg (by simp)] at this
  by_cases ho : Outside n wraps a.dd (posToCoord a q)
  · exact Or.inl ⟨ho, outside_shift hc ho⟩
  · exact Or.inr ⟨ho, fun h' => ho (outside_shift (fun k hk hw => (hc k hk hw).symm) h'), fun k hk => (he k hk).2⟩

/-- only those IDs are reported whose vertices are close -/
theorem searchList_spec (a : Adapter) (l : List (Pos × Int)) (p : Pos) :
    (∀ id, id ∈ (searchList n wraps a l p).2 ↔ ∃ q, (q, id) ∈ l ∧ distance2 n wraps a p q < a.bs * a.bs) ∧
      ((searchList n wraps a l p).1 = true ↔ (searchList n wraps a l p).2 ≠ []) := by
  unfold searchList
  have gen : ∀ (l : List (Pos × Int)) (r : Bool × List Int), (r.1 = true ↔ r.2 ≠ []) →
      let f := l.foldl (fun (r : Bool × List Int) v => if distance2 n wraps a p v.1 < a.bs * a.bs then (true, r.2 ++ [v.2]) else r) r
      (∀ id, id ∈ f.2 ↔ id ∈ r.2 ∨ ∃ q, (q, id) ∈ l ∧ distance2 n wraps a p q < a.bs * a.bs) ∧ (f.1 = true ↔ f.2 ≠ []) := by
    intro l
    induction l with
    | nil => intro r h; simpa using h
    | cons v l ih =>
      intro r h
      simp only [List.foldl_cons]
      split
      · rename_i hd
        obtain ⟨h1, h2⟩ := ih (true, r.2 ++ [v.2]) (by simp)
        refine ⟨fun id => ?_, h2⟩
        rw [h1]
        simp only [List.mem_append, List.mem_cons, List.not_mem_nil, or_false]
        constructor
        · rintro ((h | rfl) | ⟨q, hq, hd'⟩)
          · exact Or.inl h
          · exact Or.inr ⟨v.1, Or.inl rfl, hd⟩
          · exact Or.inr ⟨q, Or.inr hq, hd'⟩
        · rintro (h | ⟨q, hq | hq, hd'⟩)
          · exact Or.inl (Or.inl h)
          · exact Or.inl (Or.inr (by rw [← hq]))
          · exact Or.inr ⟨q, hq, hd'⟩
      · rename_i hd
        obtain ⟨h1, h2⟩ := ih r h
        refine ⟨fun id => ?_, h2⟩
        rw [h1]
        simp only [List.mem_cons]
        constructor
        · rintro (h | ⟨q, hq, hd'⟩)
          · exact Or.inl h
          · exact Or.inr ⟨q, Or.inr hq, hd'⟩
        · rintro (h | ⟨q, hq | hq, hd'⟩)
          · exact Or.inl h
          · rw [← hq] at hd; exact absurd hd' hd
          · exact Or.inr ⟨q, hq, hd'⟩
  obtain ⟨h1, h2⟩ := gen l (false, []) (by simp)
  exact ⟨fun id => by rw [h1]; simp, h2⟩

theorem searchLoop_spec {a : Adapter} {g : Grid (List (Pos × Int))} {p : Pos} (is : List Crd)
    (h : ∀ i ∈ is, ∃ l, gridRead n wraps g (fun k => posToCoord a p k + i k) = some l) :
    ∃ r, searchLoop n wraps a g p is = some r ∧ (r.1 = true ↔ r.2 ≠ []) ∧
      ∀ id, id ∈ r.2 ↔ ∃ i ∈ is, ∃ l, gridRead n wraps g (fun k => posToCoord a p k + i k) = some l ∧ ∃ q, (q, id) ∈ l ∧ distance2 n wraps a p q < a.bs * a.bs := by
  induction is with
  | nil => exact ⟨_, rfl, by simp, by simp⟩
  | cons i is ih =>
    obtain ⟨l, hl⟩ := h i (by simp)
    obtain ⟨r, h1, h2, h3⟩ := ih fun j hj => h j (by simp [hj])
    obtain ⟨s1, s2⟩ := searchList_spec (n := n) (wraps := wraps) a l p
    refine ⟨((searchList n wraps a l p).1 || r.1, (searchList n wraps a l p).2 ++ r.2), by
      simp only [searchLoop, hl, h1, Option.bind_some, Option.map_some], ?_, fun id => ?_⟩
    · simp only [Bool.or_eq_true, s2, h2, ne_eq, List.append_eq_nil_iff]
      tauto
    · simp only [List.mem_append, s1, h3, List.mem_cons, exists_eq_or_imp, hl, Option.some.injEq, exists_eq_left']

theorem search_spec (hn : n ≤ 2) {a : Adapter} (ha : AOK n a) {g : Grid (List (Pos × Int))} {vs : List (Pos × Int)} (h : Holds n wraps a g vs)
    (hv : ∀ v ∈ vs, Inside n wraps a.dims v.1) {p : Pos} (hp : Inside n wraps a.dims p) :
    ∃ r, search n wraps a g p = some r ∧ (r.1 = true ↔ r.2 ≠ []) ∧ ∀ id, id ∈ r.2 ↔ ∃ q, (q, id) ∈ vs ∧ distance2 n wraps a p q < a.bs * a.bs := by
  obtain ⟨is, b1, b2, -, -, -⟩ := C12.coords_partial n ⟨fun _ => -1, fun _ => 3⟩ (fun _ _ => by simp) (by simp) 28 (by
    obtain rfl | rfl | rfl : n = 0 ∨ n = 1 ∨ n = 2 := by omega
    all_goals decide)
  have hi : ∀ i ∈ is, ∀ k, k ≤ n → -1 ≤ i k ∧ i k ≤ 1 := fun i hi k hk => by
    have := (b2 i).1 ⟨i, hi, fun _ _ => rfl⟩ k hk
    simp only at this
    omega
  obtain ⟨r, r1, r2, r3⟩ := searchLoop_spec (n := n) (wraps := wraps) (a := a) (g := g) (p := p) is (fun i h' => by
    obtain ⟨l, hl, -⟩ := h.read _ (coord_onePeriod ha hp i (hi i h'))
    exact ⟨l, hl⟩)
  refine ⟨r, by simp only [search, b1, Option.bind_some, r1], r2, fun id => ?_⟩
  rw [r3]
  constructor
  · rintro ⟨i, h1, l, h2, q, h3, h4⟩
    obtain ⟨l', hl', hm⟩ := h.read _ (coord_onePeriod ha hp i (hi i h1))
    rw [h2] at hl'
    obtain rfl := Option.some.inj hl'
    exact ⟨q, ((hm _).1 h3).1, h4⟩
  · rintro ⟨q, h1, h2⟩
    have hq := hv _ h1
    have near : ∀ k, k ≤ n → axisDist (wraps k) (a.dims k) (p k) (q k) < a.bs := fun k hk => by
      rw [distance2_eq] at h2
      have : axisDist (wraps k) (a.dims k) (p k) (q k) ^ 2 ≤ ∑ k ∈ Finset.range (n + 1), axisDist (wraps k) (a.dims k) (p k) (q k) ^ 2 :=
        Finset.single_le_sum (f := fun k => axisDist (wraps k) (a.dims k) (p k) (q k) ^ 2) (fun _ _ => sq_nonneg _) (by simp; omega)
      have h3 : axisDist (wraps k) (a.dims k) (p k) (q k) ^ 2 < a.bs ^ 2 := by rw [pow_two a.bs]; linarith
      exact lt_of_pow_lt_pow_left₀ 2 ha.bs.le h3
    obtain ⟨e, e1, e2⟩ := step_of_adj (wraps := wraps) ha hp hq (fun k hk => by
      rw [posToCoord_eq ha p k hk, posToCoord_eq ha q k hk, ha.dd k hk]
      exact adj_of_near ha.bs (hp k hk) (hq k hk) (near k hk))
    obtain ⟨i, i1, i2⟩ := (b2 e).2 (fun k hk => by have := e1 k hk; simp only; omega)
    obtain ⟨l, hl, hm⟩ := h.read _ (coord_onePeriod ha hp i (hi i i1))
    refine ⟨i, i1, l, hl, q, (hm _).2 ⟨h1, same_trans e2 ?_⟩, h2⟩
    have hc : ∀ k, k ≤ n → posToCoord a p k + e k = posToCoord a p k + i k := fun k hk => by rw [i2 k hk]
    by_cases ho : Outside n wraps a.dd (fun k => posToCoord a p k + e k)
    · exact Or.inl ⟨ho, outside_congr hc ho⟩
    · refine Or.inr ⟨ho, fun h' => ho (outside_congr (fun k hk => (hc k hk).symm) h'), fun k hk => ?_⟩
      show if wraps k = true then (posToCoord a p k + e k) % a.dd k = (posToCoord a p k + i k) % a.dd k else posToCoord a p k + e k = posToCoord a p k + i k
      rw [hc k hk]
      split <;> rfl

/-- the loop's distance is the smallest one among all periodic images -/
theorem axisDist_le {w : Bool} {D p q : ℚ} (hp : w = true → 0 ≤ p ∧ p ≤ D) (hq : w = true → 0 ≤ q ∧ q ≤ D) (z : Int) (hz : w = false → z = 0) :
    axisDist w D p q ^ 2 ≤ (p - q + z * D) ^ 2 := by
  rw [sq_le_sq]
  cases w with
  | false => rw [hz rfl]; simp [axisDist]
  | true =>
    obtain ⟨p1, p2⟩ := hp rfl
    obtain ⟨q1, q2⟩ := hq rfl
    have hD : |p - q| ≤ D := abs_le.mpr ⟨by linarith, by linarith⟩
    have h0 : 0 ≤ min |p - q| (D - |p - q|) := le_min (abs_nonneg _) (by linarith)
    simp only [axisDist, if_true]
    rw [abs_of_nonneg h0]
    by_cases h : z = 0
    · rw [h]; simp
    · refine (min_le_right _ _).trans ?_
      have h1 : (1 : ℚ) ≤ |(z : ℚ)| := by
        have := Int.one_le_abs h
        exact_mod_cast this
      have h2 : D ≤ |(z : ℚ) * D| := by
        rw [abs_mul, abs_of_nonneg (by linarith [abs_nonneg (p - q)] : 0 ≤ D)]
        nlinarith [abs_nonneg (p - q)]
      have h3 : |(z : ℚ) * D| ≤ |p - q + z * D| + |p - q| := by
        have := abs_sub (p - q + z * D) (p - q)
        rwa [add_sub_cancel_left] at this
      linarith

theorem axisDist_attained (w : Bool) (D p q : ℚ) : ∃ z : Int, (w = false → z = 0) ∧ axisDist w D p q ^ 2 = (p - q + z * D) ^ 2 := by
  cases w with
  | false => exact ⟨0, fun _ => rfl, by simp [axisDist]⟩
  | true =>
    simp only [axisDist, if_true]
    rcases min_choice |p - q| (D - |p - q|) with h | h
    · exact ⟨0, by simp, by rw [h]; simp⟩
    · rw [h]
      rcases le_total q p with hc | hc
      · exact ⟨-1, by simp, by rw [abs_of_nonneg (by linarith)]; push_cast; ring⟩
      · exact ⟨1, by simp, by rw [abs_of_nonpos (by linarith)]; push_cast; ring⟩

end LGD.Meshless
