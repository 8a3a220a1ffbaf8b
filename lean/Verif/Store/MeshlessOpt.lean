import Verif.Store.MeshlessLemmas

/-!
# Lemmas on `MeshlessAdapter::findOptimumBoxSize`
-/

namespace LGD.Meshless
open LGD.Store LGD.C13 LGD.C14

variable {n : Nat} {wraps : Nat → Bool}

theorem foldl_max (f : Nat → Int) (m : Nat) (s c : Int) : (List.range m).foldl (fun s k => max (f k) s) s ≤ c ↔ s ≤ c ∧ ∀ k, k < m → f k ≤ c := by
  induction m with
  | zero => simp
  | succ m ih =>
    rw [List.range_succ, List.foldl_append]
    simp only [List.foldl_cons, List.foldl_nil, max_le_iff, ih]
    constructor
    · rintro ⟨h1, h2, h3⟩
      refine ⟨h2, fun k hk => ?_⟩
      rcases Nat.lt_succ_iff_lt_or_eq.mp hk with h | rfl
      · exact h3 k h
      · exact h1
    · rintro ⟨h1, h2⟩
      exact ⟨h2 m (by omega), h1, fun k hk => h2 k (by omega)⟩

theorem manhattan_iff (a : Adapter) (p q : Pos) :
    manhattan n wraps a p q ≤ 1 ↔ ∀ k, k ≤ n → Adj (wraps k) (a.dd k) (posToCoord a p k) (posToCoord a q k) := by
  unfold manhattan
  rw [foldl_max]
  simp only [Nat.lt_succ_iff, Adj]
  constructor
  · rintro ⟨-, h⟩ k hk
    have := h k hk
    split at this
    · rename_i hw
      rcases min_le_iff.mp this with h | h
      · exact Or.inl h
      · exact Or.inr ⟨hw, h⟩
    · exact Or.inl this
  · intro h
    refine ⟨by omega, fun k hk => ?_⟩
    rcases h k hk with h | ⟨hw, h⟩
    · split
      · exact (min_le_left _ _).trans h
      · exact h
    · rw [if_pos hw]
      exact (min_le_right _ _).trans h

/-- all edges of the graph belong to vertices with positions -/
def GraphOK (ps : List (Pos × Int)) (g : List (List Nat)) : Prop :=
  ∀ i ms, g[i]? = some ms → ∀ m ∈ ms, i < ps.length ∧ m < ps.length

theorem checkEdges_spec (a : Adapter) (ps : List (Pos × Int)) (p : Pos) (ms : List Nat) (h : ∀ m ∈ ms, m < ps.length) :
    ∃ b, checkEdges n wraps a ps p ms = some b ∧ (b = true ↔ ∀ m ∈ ms, ∀ q, ps[m]? = some q → manhattan n wraps a p q.1 ≤ 1) := by
  induction ms with
  | nil => exact ⟨true, rfl, by simp⟩
  | cons m ms ih =>
    have hm := h m (by simp)
    obtain ⟨b, h1, h2⟩ := ih fun m hm => h m (by simp [hm])
    unfold checkEdges
    rw [List.getElem?_eq_getElem hm]
    simp only
    split
    · rename_i hc
      refine ⟨false, rfl, ?_⟩
      simp only [Bool.false_eq_true, false_iff]
      intro h'
      have := h' m (by simp) _ (List.getElem?_eq_getElem hm)
      omega
    · rename_i hc
      refine ⟨b, h1, ?_⟩
      rw [h2]
      simp only [List.mem_cons, forall_eq_or_imp]
      constructor
      · intro h'
        refine ⟨fun q hq => ?_, h'⟩
        rw [List.getElem?_eq_getElem hm] at hq
        obtain rfl := Option.some.inj hq
        omega
      · exact fun h' => h'.2

/-- all edges cross at most one border of container cells per axis -/
def EdgesOK (n : Nat) (wraps : Nat → Bool) (a : Adapter) (ps : List (Pos × Int)) (g : List (List Nat)) : Prop :=
  ∀ (i : Nat) (ms : List Nat), g[i]? = some ms → ∀ m ∈ ms, ∀ p q : Pos × Int, ps[i]? = some p → ps[m]? = some q → manhattan n wraps a p.1 q.1 ≤ 1

theorem checkRows_spec (a : Adapter) (ps : List (Pos × Int)) (g : List (List Nat)) : ∀ (i0 : Nat),
    (∀ i ms, g[i]? = some ms → ∀ m ∈ ms, i0 + i < ps.length ∧ m < ps.length) →
    ∃ b, checkRows n wraps a ps i0 g = some b ∧ (b = true ↔
      ∀ i ms, g[i]? = some ms → ∀ m ∈ ms, ∀ p q, ps[i0 + i]? = some p → ps[m]? = some q → manhattan n wraps a p.1 q.1 ≤ 1) := by
  induction g with
  | nil => intro i0 _; exact ⟨true, rfl, by simp⟩
  | cons ms g ih =>
    intro i0 h
    obtain ⟨b, h1, h2⟩ := ih (i0 + 1) fun i ms hi m hm => by
      have := h (i + 1) ms (by simpa using hi) m hm
      omega
    have tail : (∀ i ms, g[i]? = some ms → ∀ m ∈ ms, ∀ p q, ps[i0 + 1 + i]? = some p → ps[m]? = some q → manhattan n wraps a p.1 q.1 ≤ 1) ↔
        ∀ i ms', (ms :: g)[i + 1]? = some ms' → ∀ m ∈ ms', ∀ p q, ps[i0 + (i + 1)]? = some p → ps[m]? = some q → manhattan n wraps a p.1 q.1 ≤ 1 := by
      refine forall_congr' fun i => forall_congr' fun ms' => ?_
      rw [List.getElem?_cons_succ, show i0 + (i + 1) = i0 + 1 + i by omega]
    have split0 : (∀ i ms', (ms :: g)[i]? = some ms' → ∀ m ∈ ms', ∀ p q, ps[i0 + i]? = some p → ps[m]? = some q → manhattan n wraps a p.1 q.1 ≤ 1) ↔
        (∀ m ∈ ms, ∀ p q, ps[i0]? = some p → ps[m]? = some q → manhattan n wraps a p.1 q.1 ≤ 1) ∧ b = true := by
      rw [h2, tail]
      constructor
      · intro h'
        exact ⟨fun m hm p q hp hq => h' 0 ms rfl m hm p q hp hq, fun i => h' (i + 1)⟩
      · rintro ⟨h3, h4⟩ i ms' hi
        cases i with
        | zero =>
          rw [List.getElem?_cons_zero] at hi
          obtain rfl := Option.some.inj hi
          exact h3
        | succ i => exact h4 i ms' hi
    unfold checkRows
    cases ms with
    | nil =>
      refine ⟨b, h1, ?_⟩
      rw [split0]; simp
    | cons m ms =>
      have hi : i0 < ps.length := (h 0 _ rfl m (by simp)).1
      rw [List.getElem?_eq_getElem hi]
      obtain ⟨b', e1, e2⟩ := checkEdges_spec (n := n) (wraps := wraps) a ps (ps[i0]).1 (m :: ms) fun m' hm => (h 0 _ rfl m' hm).2
      simp only [e1, Option.bind_some]
      have e3 : b' = true ↔ ∀ m' ∈ m :: ms, ∀ p q, ps[i0]? = some p → ps[m']? = some q → manhattan n wraps a p.1 q.1 ≤ 1 := by
        rw [e2, List.getElem?_eq_getElem hi]
        constructor
        · rintro h' m' hm p q hp hq
          obtain rfl := Option.some.inj hp
          exact h' m' hm q hq
        · exact fun h' m' hm q hq => h' m' hm _ q rfl hq
      split
      · rename_i hb
        refine ⟨b, h1, ?_⟩
        rw [split0, ← e3]
        simp [hb]
      · rename_i hb
        refine ⟨false, rfl, ?_⟩
        rw [split0, ← e3]
        simp [hb]

theorem check_spec (a : Adapter) {ps : List (Pos × Int)} {g : List (List Nat)} (h : GraphOK ps g) :
    ∃ b, checkBoxSize n wraps a ps g = some b ∧ (b = true ↔ EdgesOK n wraps a ps g) := by
  obtain ⟨b, h1, h2⟩ := checkRows_spec (n := n) (wraps := wraps) a ps g 0 (fun i ms hi m hm => by have := h i ms hi m hm; omega)
  refine ⟨b, h1, ?_⟩
  rw [h2]
  simp only [Nat.zero_add]
  rfl

theorem reset_ok (a : Adapter) {bs : ℚ} (h : 0 < bs) : AOK n (reset n a bs).1 := ⟨h, fun _ _ => rfl⟩

/-- what `findOptimumBoxSize` leaves behind when it returns -/
structure Good (n : Nat) (wraps : Nat → Bool) (dims : Pos) (ps : List (Pos × Int)) (g : List (List Nat)) (a : Adapter) (bs : ℚ) : Prop where
  ok : AOK n a
  dims : a.dims = dims
  bs : a.bs = bs
  small : crdProd n a.dd ≤ MAX_SIZE
  edges : EdgesOK n wraps a ps g

theorem finalSizes_pos {dims : Pos} (hd : ∀ k, k ≤ n → 0 < dims k) {upDim : Crd} (hu : ∀ k, k ≤ n → 0 < upDim k) :
    0 < (finalSizes n dims upDim).1 ∧ 0 < (finalSizes n dims upDim).2 := by
  unfold finalSizes
  have gen : ∀ m, m ≤ n →
      let f := (List.range (m + 1)).foldl (fun (r : ℚ × ℚ) k => if dims k / upDim k > r.1 then (dims k / upDim k, dims k / (upDim k + 1)) else r) (0, 0)
      0 < f.1 ∧ 0 < f.2 := by
    intro m
    induction m with
    | zero =>
      intro h
      have h1 : (0 : ℚ) < upDim 0 := by exact_mod_cast hu 0 h
      have h2 := hd 0 h
      have h3 : 0 < dims 0 / upDim 0 := by positivity
      simp only [List.range_succ, List.range_zero, List.nil_append, List.foldl_cons, List.foldl_nil, gt_iff_lt, h3, if_true, true_and]
      positivity
    | succ m ih =>
      intro h
      obtain ⟨i1, i2⟩ := ih (by omega)
      rw [List.range_succ, List.foldl_append]
      simp only [List.foldl_cons, List.foldl_nil]
      have h1 : (0 : ℚ) < upDim (m + 1) := by exact_mod_cast hu (m + 1) h
      have h2 := hd (m + 1) h
      split
      · exact ⟨by positivity, by positivity⟩
      · exact ⟨i1, i2⟩
  exact gen n (le_refl _)

theorem finish_spec {a : Adapter} {ps : List (Pos × Int)} {g : List (List Nat)} (hg : GraphOK ps g) (hd : ∀ k, k ≤ n → 0 < a.dims k) {upDim : Crd}
    (hu : ∀ k, k ≤ n → 0 < upDim k) :
    ∃ o, finish n wraps ps g a upDim = some o ∧ ∀ a' bs, o = .ret a' bs → Good n wraps a.dims ps g a' bs := by
  obtain ⟨p1, p2⟩ := finalSizes_pos hd hu
  unfold finish
  simp only
  split
  · exact ⟨_, rfl, by simp⟩
  · rename_i h1
    obtain ⟨b, c1, c2⟩ := check_spec (n := n) (wraps := wraps) (reset n a (finalSizes n a.dims upDim).2).1 hg
    rw [c1, Option.bind_some]
    split
    · rename_i hb
      refine ⟨_, rfl, fun a' bs h => ?_⟩
      cases h
      exact ⟨reset_ok a p2, rfl, rfl, not_lt.mp fun h => h1 (decide_eq_true h), c2.1 hb⟩
    · split
      · exact ⟨_, rfl, by simp⟩
      · rename_i h2
        obtain ⟨b, c1, c2⟩ := check_spec (n := n) (wraps := wraps) (reset n (reset n a (finalSizes n a.dims upDim).2).1 (finalSizes n a.dims upDim).1).1 hg
        rw [c1, Option.bind_some]
        split
        · rename_i hb
          refine ⟨_, rfl, fun a' bs h => ?_⟩
          cases h
          exact ⟨reset_ok _ p1, rfl, rfl, not_lt.mp fun h => h2 (decide_eq_true h), c2.1 hb⟩
        · exact ⟨_, rfl, by simp⟩

theorem prod_pos {dd : Crd} (h : ∀ k, k ≤ n → 1 ≤ dd k) : 1 ≤ crdProd n dd ∧ ∀ k, k ≤ n → dd k ≤ crdProd n dd := by
  induction n with
  | zero => exact ⟨h 0 (le_refl _), fun k hk => by obtain rfl : k = 0 := by omega
                                                   exact le_refl _⟩
  | succ n ih =>
    obtain ⟨i1, i2⟩ := ih fun k hk => h k (by omega)
    have := h (n + 1) (le_refl _)
    unfold crdProd
    refine ⟨by nlinarith, fun k hk => ?_⟩
    rcases Nat.le_succ_iff.mp hk with h' | rfl
    · have := i2 k h'; nlinarith
    · nlinarith

theorem exists_bound (f : Nat → ℚ) (n : Nat) : ∃ B : ℚ, 0 < B ∧ ∀ k, k ≤ n → |f k| < B := by
  induction n with
  | zero => exact ⟨|f 0| + 1, by positivity, fun k hk => by obtain rfl : k = 0 := by omega
                                                            linarith⟩
  | succ n ih =>
    obtain ⟨B, h1, h2⟩ := ih
    refine ⟨B + |f (n + 1)|, by positivity, fun k hk => ?_⟩
    rcases Nat.le_succ_iff.mp hk with h' | rfl
    · have := h2 k h'; linarith [abs_nonneg (f (n + 1))]
    · linarith

/-- the halving loop ends -/
theorem backOff_halve {ps : List (Pos × Int)} {g : List (List Nat)} (hg : GraphOK ps g) : ∀ (fuel : Nat) (a : Adapter), AOK n a →
    ((MAX_SIZE : ℚ) + 1) * a.bs ≤ a.dims 0 * 2 ^ fuel →
    ∃ r, backOff n wraps ps g true (1 / 2) (fuel + 1) a = some r ∧ (r.2 = false → AOK n r.1 ∧ r.1.dims = a.dims ∧ r.1.bs ≤ a.bs ∧ 0 < r.1.bs ∧
      ¬ EdgesOK n wraps r.1 ps g) := by
  intro fuel
  induction fuel with
  | zero =>
    intro a ha h
    obtain ⟨b, c1, c2⟩ := check_spec (n := n) (wraps := wraps) a hg
    unfold backOff
    rw [c1, Option.bind_some]
    split
    · have big : MAX_SIZE < crdProd n (discreteDim a.dims (a.bs * (1 / 2))) := by
        obtain ⟨-, h2⟩ := prod_pos (n := n) (dd := discreteDim a.dims (a.bs * (1 / 2))) fun k _ => by unfold discreteDim; omega
        refine lt_of_lt_of_le ?_ (h2 0 (by omega))
        unfold discreteDim
        refine lt_of_lt_of_le ?_ (le_max_right _ _)
        rw [Int.lt_iff_add_one_le, Int.le_floor]
        push_cast
        have hb := ha.bs
        rw [mul_one_div, le_div_iff₀ (by positivity)]
        have : (0 : ℚ) < MAX_SIZE := by norm_num [MAX_SIZE]
        nlinarith
      refine ⟨((reset n a (a.bs * (1 / 2))).1, true), ?_, by simp⟩
      simp only [reset, big, decide_true, if_true]
    · rename_i hb
      refine ⟨_, rfl, fun _ => ⟨ha, rfl, le_refl _, ha.bs, fun h => ?_⟩⟩
      exact hb (c2.2 h)
  | succ fuel ih =>
    intro a ha h
    obtain ⟨b, c1, c2⟩ := check_spec (n := n) (wraps := wraps) a hg
    unfold backOff
    rw [c1, Option.bind_some]
    have hb0 := ha.bs
    split
    · by_cases hr : (reset n a (a.bs * (1 / 2))).2
      · exact ⟨((reset n a (a.bs * (1 / 2))).1, true), by simp only [hr, if_true], by simp⟩
      · simp only [hr, Bool.false_eq_true, if_false]
        obtain ⟨r, r1, r2⟩ := ih (reset n a (a.bs * (1 / 2))).1 (reset_ok a (by positivity)) (by
          show ((MAX_SIZE : ℚ) + 1) * (a.bs * (1 / 2)) ≤ a.dims 0 * 2 ^ fuel
          rw [pow_succ] at h
          linarith)
        refine ⟨r, r1, fun h' => ?_⟩
        obtain ⟨q1, q2, q3, q4, q5⟩ := r2 h'
        refine ⟨q1, q2, q3.trans ?_, q4, q5⟩
        show a.bs * (1 / 2) ≤ a.bs
        linarith
    · rename_i hb
      exact ⟨_, rfl, fun _ => ⟨ha, rfl, le_refl _, ha.bs, fun h => hb (c2.2 h)⟩⟩

theorem cellOf_large {D bs p : ℚ} (hb : 0 < bs) (hD : |D| < bs) (hp : |p| < bs) : cellOf D bs p = 0 := by
  have h1 : |p * (1 / bs)| < 1 := by
    rw [abs_mul, abs_of_pos (by positivity : (0 : ℚ) < 1 / bs), mul_one_div, div_lt_one hb]; exact hp
  have h2 : |D * (1 / bs)| < 1 := by
    rw [abs_mul, abs_of_pos (by positivity : (0 : ℚ) < 1 / bs), mul_one_div, div_lt_one hb]; exact hD
  obtain ⟨h3, h4⟩ := abs_lt.mp h1
  have h5 : ⌊D * (1 / bs)⌋ < 1 := by rw [Int.floor_lt]; push_cast; exact (abs_lt.mp h2).2
  have h6 : trunc (p * (1 / bs)) = 0 := by
    unfold trunc
    split
    · rename_i h; rw [Int.floor_eq_zero_iff]; exact ⟨h, h4⟩
    · rename_i h
      have : ⌈p * (1 / bs)⌉ ≤ 0 := by rw [Int.ceil_le]; push_cast; linarith
      have : -1 < ⌈p * (1 / bs)⌉ := by rw [Int.lt_ceil]; push_cast; linarith
      omega
  unfold cellOf
  omega

/-- a box which is larger than the simulation space and all coordinates -/
theorem edges_large {a : Adapter} (ha : AOK n a) {ps : List (Pos × Int)} (g : List (List Nat)) (hd : ∀ k, k ≤ n → |a.dims k| < a.bs)
    (hp : ∀ p ∈ ps, ∀ k, k ≤ n → |p.1 k| < a.bs) : EdgesOK n wraps a ps g := by
  intro i ms _ m _ p q h1 h2
  rw [manhattan_iff]
  intro k hk
  rw [posToCoord_eq ha _ k hk, posToCoord_eq ha _ k hk, cellOf_large ha.bs (hd k hk) (hp p (List.mem_of_getElem? h1) k hk),
    cellOf_large ha.bs (hd k hk) (hp q (List.mem_of_getElem? h2) k hk)]
  exact Or.inl (by simp)

/-- the doubling loop ends -/
theorem backOff_double {ps : List (Pos × Int)} {g : List (List Nat)} (hg : GraphOK ps g) {dims : Pos} {B : ℚ} (hd : ∀ k, k ≤ n → |dims k| < B)
    (hp : ∀ p ∈ ps, ∀ k, k ≤ n → |p.1 k| < B) : ∀ (fuel : Nat) (a : Adapter), AOK n a → a.dims = dims → B ≤ a.bs * 2 ^ fuel →
    ∃ r, backOff n wraps ps g false 2 (fuel + 1) a = some r ∧ (r.2 = false → AOK n r.1 ∧ r.1.dims = a.dims ∧ a.bs ≤ r.1.bs ∧ EdgesOK n wraps r.1 ps g) := by
  intro fuel
  induction fuel with
  | zero =>
    intro a ha hD h
    obtain ⟨b, c1, c2⟩ := check_spec (n := n) (wraps := wraps) a hg
    unfold backOff
    rw [c1, Option.bind_some]
    have h : B ≤ a.bs := by simpa using h
    have he : EdgesOK n wraps a ps g := edges_large ha g (fun k hk => by rw [hD]; exact lt_of_lt_of_le (hd k hk) h) (fun p h' k hk => lt_of_lt_of_le (hp p h' k hk) h)
    rw [c2.2 he, if_neg (by simp)]
    exact ⟨_, rfl, fun _ => ⟨ha, rfl, le_refl _, he⟩⟩
  | succ fuel ih =>
    intro a ha hD h
    obtain ⟨b, c1, c2⟩ := check_spec (n := n) (wraps := wraps) a hg
    unfold backOff
    rw [c1, Option.bind_some]
    have hb0 := ha.bs
    split
    · by_cases hr : (reset n a (a.bs * 2)).2
      · exact ⟨((reset n a (a.bs * 2)).1, true), by simp only [hr, if_true], by simp⟩
      · simp only [hr, Bool.false_eq_true, if_false]
        obtain ⟨r, r1, r2⟩ := ih (reset n a (a.bs * 2)).1 (reset_ok a (by positivity)) hD (by
          show B ≤ (a.bs * 2) * 2 ^ fuel
          rw [pow_succ] at h
          linarith)
        refine ⟨r, r1, fun h' => ?_⟩
        obtain ⟨q1, q2, q3, q4⟩ := r2 h'
        refine ⟨q1, q2, le_trans ?_ q3, q4⟩
        show a.bs ≤ a.bs * 2
        linarith
    · rename_i hb
      refine ⟨_, rfl, fun _ => ⟨ha, rfl, le_refl _, c2.1 ?_⟩⟩
      simpa using hb

/-- small intervals of box sizes end the bisection -/
theorem not_tooLarge {dims : Pos} {D lo up L : ℚ} (hD : ∀ k, k ≤ n → |dims k| < D) (hL : 0 < L) (hlo : L ≤ lo) (hup : lo ≤ up) (h : D * (up - lo) ≤ L * L) :
    tooLarge n (discreteDim dims lo) (discreteDim dims up) = false := by
  unfold tooLarge
  rw [decide_eq_false_iff_not, not_lt]
  rw [show (fun m k => max m |discreteDim dims lo k - discreteDim dims up k|) = fun m k => max |discreteDim dims lo k - discreteDim dims up k| m from
    funext fun m => funext fun k => max_comm _ _]
  rw [foldl_max]
  refine ⟨by omega, fun k hk => ?_⟩
  have h0 : 0 < lo := by linarith
  have h1 : 0 < up := by linarith
  have key : |dims k * (1 / lo) - dims k * (1 / up)| < 1 ∨ dims k = 0 := by
    by_cases hz : dims k = 0
    · exact Or.inr hz
    · refine Or.inl ?_
      rw [← mul_sub, abs_mul, show 1 / lo - 1 / up = (up - lo) / (lo * up) by field_simp, abs_of_nonneg (div_nonneg (sub_nonneg.mpr hup) (mul_pos h0 h1).le), ← mul_div_assoc,
        div_lt_one (by positivity)]
      by_cases he : up = lo
      · rw [he]; simp; positivity
      · have h2 : 0 < up - lo := by
          rcases lt_or_eq_of_le hup with h | h
          · linarith
          · exact absurd h.symm he
        have h3 := hD k (by omega)
        have h4 : L * L ≤ lo * up := mul_le_mul hlo (by linarith) hL.le h0.le
        nlinarith
  rcases key with h2 | h2
  · obtain ⟨k1, k2⟩ := abs_lt.mp h2
    have f1 := Int.floor_le (dims k * (1 / lo))
    have f2 := Int.lt_floor_add_one (dims k * (1 / lo))
    have f3 := Int.floor_le (dims k * (1 / up))
    have f4 := Int.lt_floor_add_one (dims k * (1 / up))
    have g1 : ⌊dims k * (1 / lo)⌋ < ⌊dims k * (1 / up)⌋ + 2 := by
      have : (⌊dims k * (1 / lo)⌋ : ℚ) < ⌊dims k * (1 / up)⌋ + 2 := by linarith
      exact_mod_cast this
    have g2 : ⌊dims k * (1 / up)⌋ < ⌊dims k * (1 / lo)⌋ + 2 := by
      have : (⌊dims k * (1 / up)⌋ : ℚ) < ⌊dims k * (1 / lo)⌋ + 2 := by linarith
      exact_mod_cast this
    unfold discreteDim
    rw [abs_le]
    omega
  · unfold discreteDim
    rw [h2]
    simp

theorem bisect_spec {ps : List (Pos × Int)} {g : List (List Nat)} (hg : GraphOK ps g) {dims : Pos} {D L : ℚ} (hD : ∀ k, k ≤ n → |dims k| < D) (hL : 0 < L) :
    ∀ (fuel : Nat) (a : Adapter) (lo up : ℚ), a.dims = dims → L ≤ lo → lo ≤ up → D * (up - lo) ≤ L * L * 2 ^ fuel →
    ∃ r, bisect n wraps ps g (fuel + 1) a lo up (discreteDim dims lo) (discreteDim dims up) = some r ∧
      (r.2.1 = false → r.1.dims = dims ∧ ∀ k, k ≤ n → 0 < r.2.2 k) := by
  have pos : ∀ b k, 0 < discreteDim dims b k := fun b k => by unfold discreteDim; omega
  intro fuel
  induction fuel with
  | zero =>
    intro a lo up ha h1 h2 h3
    unfold bisect
    rw [not_tooLarge hD hL h1 h2 (by simpa using h3)]
    exact ⟨(a, false, discreteDim dims up), rfl, fun _ => ⟨ha, fun k _ => pos _ k⟩⟩
  | succ fuel ih =>
    intro a lo up ha h1 h2 h3
    unfold bisect
    split
    · by_cases hr : (reset n a ((up + lo) * (1 / 2))).2
      · exact ⟨((reset n a ((up + lo) * (1 / 2))).1, true, discreteDim dims up), by simp only [hr, if_true], by simp⟩
      · simp only [hr, Bool.false_eq_true, if_false]
        obtain ⟨b, c1, c2⟩ := check_spec (n := n) (wraps := wraps) (reset n a ((up + lo) * (1 / 2))).1 hg
        rw [c1, Option.bind_some]
        rw [pow_succ] at h3
        have e : (reset n a ((up + lo) * (1 / 2))).1.dd = discreteDim dims ((up + lo) * (1 / 2)) := by rw [← ha]; rfl
        rw [e]
        split
        · exact ih _ lo ((up + lo) * (1 / 2)) ha h1 (by linarith) (by linarith)
        · exact ih _ ((up + lo) * (1 / 2)) up ha (by linarith) (by linarith) (by linarith)
    · exact ⟨(a, false, discreteDim dims up), rfl, fun _ => ⟨ha, fun k _ => pos _ k⟩⟩

theorem exists_pow (x c : ℚ) (hc : 0 < c) : ∃ m : Nat, ∀ fuel, m ≤ fuel → x ≤ c * 2 ^ fuel := by
  obtain ⟨m, hm⟩ := pow_unbounded_of_one_lt (x / c) (by norm_num : (1 : ℚ) < 2)
  refine ⟨m, fun fuel hf => ?_⟩
  have h1 : (2 : ℚ) ^ m ≤ 2 ^ fuel := pow_le_pow_right₀ (by norm_num) hf
  rw [div_lt_iff₀ hc] at hm
  nlinarith

theorem pos_bound (ps : List (Pos × Int)) : ∃ B : ℚ, 0 < B ∧ ∀ p ∈ ps, ∀ k, k ≤ n → |p.1 k| < B := by
  induction ps with
  | nil => exact ⟨1, by norm_num, by simp⟩
  | cons p ps ih =>
    obtain ⟨B, h1, h2⟩ := ih
    obtain ⟨C, h3, h4⟩ := exists_bound p.1 n
    refine ⟨B + C, by positivity, fun q hq k hk => ?_⟩
    rcases List.mem_cons.mp hq with rfl | hq
    · have := h4 k hk; linarith
    · have := h2 q hq k hk; linarith

theorem AOK.dd_eq {a : Adapter} (h : a.dd = discreteDim a.dims a.bs) (hb : 0 < a.bs) : AOK n a := ⟨hb, fun k _ => by rw [h]; rfl⟩

theorem backOff_mono {ps : List (Pos × Int)} {g : List (List Nat)} {b : Bool} {c : ℚ} : ∀ (f : Nat) (a : Adapter) (r : Adapter × Bool),
    backOff n wraps ps g b c f a = some r → backOff n wraps ps g b c (f + 1) a = some r := by
  intro f
  induction f with
  | zero => intro a r h; simp [backOff] at h
  | succ f ih =>
    intro a r h
    unfold backOff at h ⊢
    rw [Option.bind_eq_some_iff] at h ⊢
    obtain ⟨b, h1, h2⟩ := h
    refine ⟨b, h1, ?_⟩
    split at h2
    · rename_i hb
      rw [if_pos hb]
      simp only at h2 ⊢
      split at h2
      · rename_i hr; rw [if_pos hr]; exact h2
      · rename_i hr; rw [if_neg hr]; exact ih _ _ h2
    · rename_i hb
      rw [if_neg hb]; exact h2

theorem backOff_dd {ps : List (Pos × Int)} {g : List (List Nat)} {b : Bool} {c : ℚ} : ∀ (fuel : Nat) (a : Adapter) (r : Adapter × Bool),
    a.dd = discreteDim a.dims a.bs → backOff n wraps ps g b c fuel a = some r → r.1.dd = discreteDim r.1.dims r.1.bs := by
  intro fuel
  induction fuel with
  | zero => intro a r _ h; simp [backOff] at h
  | succ fuel ih =>
    intro a r hd h
    unfold backOff at h
    rw [Option.bind_eq_some_iff] at h
    obtain ⟨b', -, h⟩ := h
    split at h
    · simp only at h
      split at h
      · cases h; rfl
      · exact ih _ _ rfl h
    · cases h; exact hd

/-- `findOptimumBoxSize` ends, and its result is as it should be -/
theorem findOptimum_spec {a : Adapter} (hb : 0 < a.bs) (hdd : a.dd = discreteDim a.dims a.bs) {ps : List (Pos × Int)} {g : List (List Nat)} (hg : GraphOK ps g)
    (hd : ∀ k, k ≤ n → 0 < a.dims k) :
    (∃ m, ∀ fuel, m ≤ fuel → ∃ o, findOptimum n wraps fuel a ps g = some o ∧ ∀ a' bs, o = .ret a' bs → Good n wraps a.dims ps g a' bs) := by
  obtain ⟨D, D1, D2⟩ := exists_bound a.dims n
  obtain ⟨B, B1, B2⟩ := pos_bound (n := n) ps
  obtain ⟨b, c1, c2⟩ := check_spec (n := n) (wraps := wraps) a hg
  have done : ∀ (e : Option (Adapter × Bool × Crd)) (r : Adapter × Bool × Crd), e = some r → (r.2.1 = false → r.1.dims = a.dims ∧ ∀ k, k ≤ n → 0 < r.2.2 k) →
      ∃ o, (e.bind fun r => if r.2.1 then some .tooMany else finish n wraps ps g r.1 r.2.2) = some o ∧ ∀ a' bs, o = .ret a' bs → Good n wraps a.dims ps g a' bs := by
    rintro _ r rfl h
    rw [Option.bind_some]
    split
    · exact ⟨_, rfl, by simp⟩
    · rename_i hf
      obtain ⟨h1, h2⟩ := h (by simpa using hf)
      rw [← h1]
      exact finish_spec hg (by rw [h1]; exact hd) h2
  cases b with
  | true =>
    by_cases hr : (reset n a (a.bs * (1 / 2))).2
    · exact ⟨0, fun fuel _ => ⟨.tooMany, by simp only [findOptimum, c1, Option.bind_some, if_true, hr], by simp⟩⟩
    · obtain ⟨m1, hm1⟩ := exists_pow (((MAX_SIZE : ℚ) + 1) * (a.bs * (1 / 2))) (a.dims 0) (hd 0 (by omega))
      obtain ⟨r0, e1, e2⟩ := backOff_halve (wraps := wraps) hg m1 (reset n a (a.bs * (1 / 2))).1 (reset_ok a (by positivity)) (hm1 m1 (le_refl _))
      have same : ∀ fuel, m1 ≤ fuel → backOff n wraps ps g true (1 / 2) (fuel + 1) (reset n a (a.bs * (1 / 2))).1 = some r0 := by
        intro fuel hf
        induction fuel, hf using Nat.le_induction with
        | base => exact e1
        | succ f _ ih => exact backOff_mono _ _ _ ih
      by_cases ho : r0.2
      · refine ⟨m1 + 1, fun fuel hf => ⟨.tooMany, ?_, by simp⟩⟩
        obtain ⟨f, rfl⟩ : ∃ f, fuel = f + 1 := ⟨fuel - 1, by omega⟩
        simp only [findOptimum, c1, Option.bind_some, if_true, hr, Bool.false_eq_true, if_false, same f (by omega), ho]
      · obtain ⟨q1, q2, q3, q4, -⟩ := e2 (by simpa using ho)
        have qd : r0.1.dd = discreteDim a.dims r0.1.bs := by
          have := backOff_dd _ _ _ rfl e1
          rw [this, q2]; rfl
        have q3 : r0.1.bs ≤ a.bs * (1 / 2) := q3
        obtain ⟨m2, hm2⟩ := exists_pow (D * (a.bs - r0.1.bs)) (r0.1.bs * r0.1.bs) (by positivity)
        refine ⟨m1 + m2 + 1, fun fuel hf => ?_⟩
        obtain ⟨f, rfl⟩ : ∃ f, fuel = f + 1 := ⟨fuel - 1, by omega⟩
        obtain ⟨r, s1, s2⟩ := bisect_spec (wraps := wraps) hg D2 q4 f r0.1 r0.1.bs a.bs q2 (le_refl _) (by linarith) (hm2 f (by omega))
        simp only [findOptimum, c1, Option.bind_some, if_true, hr, Bool.false_eq_true, if_false, same f (by omega), ho]
        refine done _ r ?_ s2
        rw [qd, hdd]; exact s1
  | false =>
    by_cases hr : (reset n a (a.bs * 2)).2
    · exact ⟨0, fun fuel _ => ⟨.tooMany, by simp only [findOptimum, c1, Option.bind_some, if_true, hr, Bool.false_eq_true, if_false], by simp⟩⟩
    · obtain ⟨m1, hm1⟩ := exists_pow (D + B) (a.bs * 2) (by positivity)
      obtain ⟨r0, e1, e2⟩ := backOff_double (wraps := wraps) hg (dims := a.dims) (B := D + B) (fun k hk => by have := D2 k hk; linarith)
        (fun p hp k hk => by have := B2 p hp k hk; linarith) m1 (reset n a (a.bs * 2)).1 (reset_ok a (by positivity)) rfl (hm1 m1 (le_refl _))
      have same : ∀ fuel, m1 ≤ fuel → backOff n wraps ps g false 2 (fuel + 1) (reset n a (a.bs * 2)).1 = some r0 := by
        intro fuel hf
        induction fuel, hf using Nat.le_induction with
        | base => exact e1
        | succ f _ ih => exact backOff_mono _ _ _ ih
      by_cases ho : r0.2
      · refine ⟨m1 + 1, fun fuel hf => ⟨.tooMany, ?_, by simp⟩⟩
        obtain ⟨f, rfl⟩ : ∃ f, fuel = f + 1 := ⟨fuel - 1, by omega⟩
        simp only [findOptimum, c1, Option.bind_some, if_true, hr, Bool.false_eq_true, if_false, same f (by omega), ho]
      · obtain ⟨q1, q2, q3, -⟩ := e2 (by simpa using ho)
        have qd : r0.1.dd = discreteDim a.dims r0.1.bs := by
          have := backOff_dd _ _ _ rfl e1
          rw [this, q2]; rfl
        have q3 : a.bs * 2 ≤ r0.1.bs := q3
        obtain ⟨m2, hm2⟩ := exists_pow (D * (r0.1.bs - a.bs)) (a.bs * a.bs) (by positivity)
        refine ⟨m1 + m2 + 1, fun fuel hf => ?_⟩
        obtain ⟨f, rfl⟩ : ∃ f, fuel = f + 1 := ⟨fuel - 1, by omega⟩
        obtain ⟨r, s1, s2⟩ := bisect_spec (wraps := wraps) hg D2 hb f r0.1 a.bs r0.1.bs q2 (le_refl _) (by linarith) (hm2 f (by omega))
        simp only [findOptimum, c1, Option.bind_some, hr, Bool.false_eq_true, if_false, same f (by omega), ho]
        refine done _ r ?_ s2
        rw [qd, hdd]; exact s1

end LGD.Meshless
