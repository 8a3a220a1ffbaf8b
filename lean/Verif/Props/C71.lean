import Verif.Mesh.MesherModel
import Verif.Ieee.RoundLemmas

/-!
# C71: meshes fit into grids of container cells

`UnstructuredGridMesher` chooses container cells so that all points lie inside of the grid, and points which are neighbors in
neighboring (or the same) container cells. The former holds for `double`, too; the latter only for exact arithmetic: with
`double`, neighbors may be two container cells apart, but never more.
-/

namespace LGD.C71
open LGD.Mesher LGD.Ieee

/-- what's needed of rounding -/
structure Rounding (rd : ℚ → ℚ) : Prop where
  zero : rd 0 = 0
  mono : ∀ {x y}, x ≤ y → rd x ≤ rd y
  half : ∀ k : ℤ, |k| ≤ 2 ^ 53 → rd (k / 2) = k / 2
  neg : ∀ x, rd (-x) = -rd x

theorem exact_rounding : Rounding id := ⟨rfl, fun h => h, fun _ _ => rfl, fun _ => rfl⟩
theorem double_rounding : Rounding rnd := ⟨rnd_zero, rnd_mono, fun _ h => rnd_double (double_half h), rnd_neg⟩

/-! ## The loops -/

variable {rd : ℚ → ℚ} {n : Nat}

/-- neighbors according to the lists -/
def Linked (points : List Point) (neighbors : List (List Nat)) (p q : Point) : Prop :=
  ∃ (i j : Nat) (hood : List Nat), points[i]? = some p ∧ neighbors[i]? = some hood ∧ j ∈ hood ∧ points[j]? = some q

/-- all indices are valid -/
def Valid (points : List Point) (neighbors : List (List Nat)) : Prop :=
  points.length ≤ neighbors.length ∧ ∀ (i : Nat) (hood : List Nat), i < points.length → neighbors[i]? = some hood → ∀ j ∈ hood, j < points.length

theorem overNeighbors_some (points : List Point) (p : Point) : ∀ (js : List Nat) (md r : Point), overNeighbors rd points p js md = some r →
    (∀ j ∈ js, j < points.length) ∧ (∀ d, md d ≤ r d) ∧ (∀ j ∈ js, ∀ q, points[j]? = some q → ∀ d, |rd (p d - q d)| ≤ r d) ∧
      (∀ d, r d = md d ∨ ∃ j ∈ js, ∃ q, points[j]? = some q ∧ r d = |rd (p d - q d)|) := by
  intro js
  induction js with
  | nil =>
    intro md r h
    simp only [overNeighbors, Option.some.injEq] at h
    subst h
    exact ⟨by simp, fun _ => le_refl _, by simp, fun _ => Or.inl rfl⟩
  | cons j js ih =>
    intro md r h
    simp only [overNeighbors] at h
    cases hq : points[j]? with
    | none => rw [hq] at h; cases h
    | some q =>
      rw [hq] at h
      simp only [Option.bind_some] at h
      obtain ⟨h1, h2, h3, h4⟩ := ih _ _ h
      refine ⟨?_, fun d => (le_max_left _ _).trans (h2 d), ?_, ?_⟩
      · intro k hk
        rcases List.mem_cons.1 hk with e | e
        · subst e
          by_contra hge
          rw [List.getElem?_eq_none (by omega)] at hq; cases hq
        · exact h1 k e
      · intro k hk q' hq' d
        rcases List.mem_cons.1 hk with e | e
        · subst e
          rw [hq, Option.some.injEq] at hq'
          subst hq'
          exact (le_max_right _ _).trans (h2 d)
        · exact h3 k e q' hq' d
      · intro d
        rcases h4 d with e | ⟨k, hk, q', hq', e⟩
        · rcases max_choice (md d) |rd (p d - q d)| with hm | hm
          · left; rw [e, hm]
          · right; exact ⟨j, by simp, q, hq, by rw [e, hm]⟩
        · right; exact ⟨k, by simp [hk], q', hq', e⟩

theorem overNeighbors_exists (points : List Point) (p : Point) : ∀ (js : List Nat) (md : Point), (∀ j ∈ js, j < points.length) → ∃ r, overNeighbors rd points p js md = some r := by
  intro js
  induction js with
  | nil => intro md _; exact ⟨md, rfl⟩
  | cons j js ih =>
    intro md h
    have hj := h j (by simp)
    simp only [overNeighbors, List.getElem?_eq_getElem hj, Option.bind_some]
    exact ih _ (fun k hk => h k (by simp [hk]))

theorem overPoints_some (points : List Point) (neighbors : List (List Nat)) : ∀ (is : List Nat) (a r : Point × Point × Point), overPoints rd points neighbors is a = some r →
    (∀ i ∈ is, i < points.length ∧ ∃ hood, neighbors[i]? = some hood ∧ ∀ j ∈ hood, j < points.length) ∧
    (∀ d, a.1 d ≤ r.1 d ∧ r.2.1 d ≤ a.2.1 d ∧ a.2.2 d ≤ r.2.2 d) ∧
    (∀ i ∈ is, ∀ p, points[i]? = some p → ∀ d, r.2.1 d ≤ p d ∧ p d ≤ r.2.2 d) ∧
    (∀ i ∈ is, ∀ p hood, points[i]? = some p → neighbors[i]? = some hood → ∀ j ∈ hood, ∀ q, points[j]? = some q → ∀ d, |rd (p d - q d)| ≤ r.1 d) ∧
    (∀ d, r.1 d = a.1 d ∨ ∃ p q, Linked points neighbors p q ∧ r.1 d = |rd (p d - q d)|) ∧
    (∀ d, r.2.1 d = a.2.1 d ∨ ∃ p ∈ points, r.2.1 d = p d) ∧
    (∀ d, r.2.2 d = a.2.2 d ∨ ∃ p ∈ points, r.2.2 d = p d) := by
  intro is
  induction is with
  | nil =>
    intro a r h
    simp only [overPoints, Option.some.injEq] at h
    subst h
    exact ⟨by simp, fun _ => ⟨le_refl _, le_refl _, le_refl _⟩, by simp, by simp, fun _ => Or.inl rfl, fun _ => Or.inl rfl, fun _ => Or.inl rfl⟩
  | cons i is ih =>
    intro a r h
    simp only [overPoints] at h
    cases hp : points[i]? with
    | none => rw [hp] at h; cases h
    | some p =>
      cases hn : neighbors[i]? with
      | none => rw [hp, hn] at h; cases h
      | some hood =>
        rw [hp, hn] at h
        simp only [Option.bind_some] at h
        cases hm : overNeighbors rd points p hood a.1 with
        | none => rw [hm] at h; cases h
        | some md =>
          rw [hm] at h
          simp only [Option.bind_some] at h
          obtain ⟨m1, m2, m3, m4⟩ := overNeighbors_some points p hood a.1 md hm
          obtain ⟨h1, h2, h3, h4, h5, h6, h7⟩ := ih _ _ h
          have hi : i < points.length := by
            by_contra hge
            rw [List.getElem?_eq_none (by omega)] at hp; cases hp
          have hmem : p ∈ points := List.mem_of_getElem? hp
          refine ⟨?_, ?_, ?_, ?_, ?_, ?_, ?_⟩
          · intro k hk
            rcases List.mem_cons.1 hk with e | e
            · subst e; exact ⟨hi, hood, hn, m1⟩
            · exact h1 k e
          · intro d
            obtain ⟨a1, a2, a3⟩ := h2 d
            exact ⟨(m2 d).trans a1, a2.trans (min_le_left _ _), (le_max_left _ _).trans a3⟩
          · intro k hk q hq d
            rcases List.mem_cons.1 hk with e | e
            · subst e
              rw [hp, Option.some.injEq] at hq
              subst hq
              obtain ⟨a1, a2, a3⟩ := h2 d
              exact ⟨a2.trans (min_le_right _ _), (le_max_right _ _).trans a3⟩
            · exact h3 k e q hq d
          · intro k hk p' hood' hp' hn' j hj q hq d
            rcases List.mem_cons.1 hk with e | e
            · subst e
              rw [hp, Option.some.injEq] at hp'
              rw [hn, Option.some.injEq] at hn'
              subst hp' hn'
              exact (m3 j hj q hq d).trans (h2 d).1
            · exact h4 k e p' hood' hp' hn' j hj q hq d
          · intro d
            rcases h5 d with e | e
            · rcases m4 d with e' | ⟨j, hj, q, hq, e'⟩
              · left; exact e.trans e'
              · right; exact ⟨p, q, ⟨i, j, hood, hp, hn, hj, hq⟩, e.trans e'⟩
            · right; exact e
          · intro d
            rcases h6 d with e | e
            · rcases min_choice (a.2.1 d) (p d) with e' | e'
              · left; exact e.trans e'
              · right; exact ⟨p, hmem, e.trans e'⟩
            · right; exact e
          · intro d
            rcases h7 d with e | e
            · rcases max_choice (a.2.2 d) (p d) with e' | e'
              · left; exact e.trans e'
              · right; exact ⟨p, hmem, e.trans e'⟩
            · right; exact e

theorem overPoints_exists (points : List Point) (neighbors : List (List Nat)) : ∀ (is : List Nat) (a : Point × Point × Point),
    (∀ i ∈ is, i < points.length ∧ ∃ hood, neighbors[i]? = some hood ∧ ∀ j ∈ hood, j < points.length) → ∃ r, overPoints rd points neighbors is a = some r := by
  intro is
  induction is with
  | nil => intro a _; exact ⟨a, rfl⟩
  | cons i is ih =>
    intro a h
    obtain ⟨hi, hood, hn, hj⟩ := h i (by simp)
    obtain ⟨r, hr⟩ := overNeighbors_exists (rd := rd) points points[i] hood a.1 hj
    simp only [overPoints, List.getElem?_eq_getElem hi, hn, hr, Option.bind_some]
    exact ih _ (fun k hk => h k (by simp [hk]))

/-! ## What the constructor computes -/

/-- **C71 (cells).** Container cells are as large as the largest distance of neighbors, and the grid is spanned by the outermost points. -/
theorem extents {points : List Point} {neighbors : List (List Nat)} {m : Mesher} (h : make rd n points neighbors = some m) :
    (∀ p q, Linked points neighbors p q → ∀ d, |rd (p d - q d)| ≤ m.cellDim d) ∧
    (∀ d ≤ n, ∃ p q, Linked points neighbors p q ∧ m.cellDim d = |rd (p d - q d)|) ∧
    (∀ p ∈ points, ∀ d, m.minCoord d ≤ p d ∧ p d ≤ m.maxCoord d) ∧
    (∀ d, (∃ p ∈ points, m.minCoord d = p d) ∧ ∃ p ∈ points, m.maxCoord d = p d) ∧
    (∀ d, m.gridDim d = rd (m.maxCoord d - m.minCoord d)) ∧
    (∀ d ≤ n, 0 < m.cellDim d ∧ Fits (m.logicalGridDim d)) ∧
    (∀ d, m.logicalGridDim d = roundAway (rd (rd (m.gridDim d / m.cellDim d) + 1 / 2))) := by
  unfold make at h
  cases hp : points.head? with
  | none => rw [hp] at h; cases h
  | some p =>
    rw [hp, Option.bind_some] at h
    cases ha : overPoints rd points neighbors (List.range points.length) (fun _ => 0, p, p) with
    | none => rw [ha] at h; cases h
    | some a =>
      rw [ha, Option.bind_some] at h
      simp only at h
      split at h
      · rename_i hc
        simp only [List.all_eq_true, decide_eq_true_eq] at hc
        simp only [Option.some.injEq] at h
        obtain ⟨h1, h2, h3, h4, h5, h6, h7⟩ := overPoints_some points neighbors _ _ _ ha
        have hmem : p ∈ points := List.mem_of_mem_head? (by rw [hp]; rfl)
        have lt : ∀ {i : Nat} {q : Point}, points[i]? = some q → i ∈ List.range points.length := by
          intro i q hq
          rw [List.mem_range]
          by_contra hge
          rw [List.getElem?_eq_none (by omega)] at hq; cases hq
        have hpos : ∀ d ≤ n, a.1 d ≠ 0 ∧ Fits (roundAway (rd (rd (rd (a.2.2 d - a.2.1 d) / a.1 d) + 1 / 2))) := fun d hd => hc d (List.mem_range.2 (by omega))
        subst h
        refine ⟨?_, ?_, ?_, ?_, fun d => rfl, ?_, fun d => rfl⟩
        · rintro p q ⟨i, j, hood, e1, e2, e3, e4⟩ d
          exact h4 i (lt e1) p hood e1 e2 j e3 q e4 d
        · intro d hd
          rcases h5 d with e | ⟨p, q, hl, e⟩
          · exact absurd e (hpos d hd).1
          · exact ⟨p, q, hl, e⟩
        · intro q hq d
          obtain ⟨i, hi⟩ := List.mem_iff_getElem?.1 hq
          exact h3 i (lt hi) q hi d
        · intro d
          refine ⟨?_, ?_⟩
          · rcases h6 d with e | e
            · exact ⟨p, hmem, e⟩
            · exact e
          · rcases h7 d with e | e
            · exact ⟨p, hmem, e⟩
            · exact e
        · intro d hd
          obtain ⟨e1, e2⟩ := hpos d hd
          exact ⟨lt_of_le_of_ne (h2 d).1 (Ne.symm e1), e2⟩
      · cases h

/-- **C71 (precondition).** Construction is defined iff there are points, all indices are valid, neighbors differ in every
dimension, and the grid's extent can be stored. -/
theorem defined_iff (points : List Point) (neighbors : List (List Nat)) : (∃ m, make rd n points neighbors = some m) ↔
    points ≠ [] ∧ Valid points neighbors ∧ (∀ d ≤ n, ∃ p q, Linked points neighbors p q ∧ rd (p d - q d) ≠ 0) ∧
      ∀ (mn mx c : Point), (∀ d ≤ n, (∀ p ∈ points, mn d ≤ p d ∧ p d ≤ mx d) ∧ (∃ p ∈ points, mn d = p d) ∧ (∃ p ∈ points, mx d = p d) ∧
        (∀ p q, Linked points neighbors p q → |rd (p d - q d)| ≤ c d) ∧ ∃ p q, Linked points neighbors p q ∧ c d = |rd (p d - q d)|) →
          ∀ d ≤ n, Fits (roundAway (rd (rd (rd (mx d - mn d) / c d) + 1 / 2))) := by
  constructor
  · rintro ⟨m, h⟩
    obtain ⟨h1, h2, h3, h4, h5, h6, h7⟩ := extents h
    have hne : points ≠ [] := by
      rintro rfl
      obtain ⟨⟨p, hp, _⟩, _⟩ := h4 0
      cases hp
    refine ⟨hne, ?_, ?_, ?_⟩
    · unfold make at h
      cases hp : points.head? with
      | none => rw [hp] at h; cases h
      | some p =>
        rw [hp, Option.bind_some] at h
        cases ha : overPoints rd points neighbors (List.range points.length) (fun _ => 0, p, p) with
        | none => rw [ha] at h; cases h
        | some a =>
          obtain ⟨g1, _⟩ := overPoints_some points neighbors _ _ _ ha
          refine ⟨?_, ?_⟩
          · by_contra hlt
            obtain ⟨_, hood, e, _⟩ := g1 neighbors.length (List.mem_range.2 (by omega))
            rw [List.getElem?_eq_none (le_refl _)] at e
            cases e
          · intro i hood hi e j hj
            obtain ⟨_, hood', e', hv⟩ := g1 i (List.mem_range.2 hi)
            rw [e, Option.some.injEq] at e'
            subst e'
            exact hv j hj
    · intro d hd
      obtain ⟨p, q, hl, e⟩ := h2 d hd
      refine ⟨p, q, hl, fun h0 => ?_⟩
      have := (h6 d hd).1
      rw [e, h0, abs_zero] at this
      exact lt_irrefl _ this
    · intro mn mx c hs d hd
      obtain ⟨s1, ⟨p1, hp1, s2⟩, ⟨p2, hp2, s3⟩, s4, p, q, hl, s5⟩ := hs d hd
      have e1 : mn d = m.minCoord d := by
        obtain ⟨⟨p', hp', e⟩, _⟩ := h4 d
        apply le_antisymm
        · rw [e]; exact (s1 p' hp').1
        · rw [s2]; exact (h3 p1 hp1 d).1
      have e2 : mx d = m.maxCoord d := by
        obtain ⟨_, p', hp', e⟩ := h4 d
        apply le_antisymm
        · rw [s3]; exact (h3 p2 hp2 d).2
        · rw [e]; exact (s1 p' hp').2
      have e3 : c d = m.cellDim d := by
        obtain ⟨p', q', hl', e⟩ := h2 d hd
        apply le_antisymm
        · rw [s5]; exact h1 p q hl d
        · rw [e]; exact s4 p' q' hl'
      rw [e1, e2, e3, ← h5, ← h7]
      exact (h6 d hd).2
  · rintro ⟨hne, hv, hd, hf⟩
    obtain ⟨p, hp⟩ : ∃ p, points.head? = some p := by
      cases points with
      | nil => exact absurd rfl hne
      | cons p _ => exact ⟨p, rfl⟩
    have hmem : p ∈ points := List.mem_of_mem_head? (by rw [hp]; rfl)
    obtain ⟨a, ha⟩ := overPoints_exists (rd := rd) points neighbors (List.range points.length) (fun _ => 0, p, p) (fun i hi => by
      rw [List.mem_range] at hi
      have hi' : i < neighbors.length := lt_of_lt_of_le hi hv.1
      exact ⟨hi, neighbors[i], List.getElem?_eq_getElem hi', hv.2 i _ hi (List.getElem?_eq_getElem hi')⟩)
    obtain ⟨h1, h2, h3, h4, h5, h6, h7⟩ := overPoints_some points neighbors _ _ _ ha
    have lt : ∀ {i : Nat} {q : Point}, points[i]? = some q → i ∈ List.range points.length := by
      intro i q hq
      rw [List.mem_range]
      by_contra hge
      rw [List.getElem?_eq_none (by omega)] at hq; cases hq
    have linked : ∀ d p q, Linked points neighbors p q → |rd (p d - q d)| ≤ a.1 d := by
      rintro d p q ⟨i, j, hood, e1, e2, e3, e4⟩
      exact h4 i (lt e1) p hood e1 e2 j e3 q e4 d
    have pos : ∀ d ≤ n, 0 < a.1 d := by
      intro d hdn
      obtain ⟨p, q, hl, h0⟩ := hd d hdn
      exact lt_of_lt_of_le (abs_pos.2 h0) (linked d p q hl)
    have := hf a.2.1 a.2.2 a.1 (fun d hdn => by
      refine ⟨?_, ?_, ?_, linked d, ?_⟩
      · intro q hq
        obtain ⟨i, hi⟩ := List.mem_iff_getElem?.1 hq
        exact h3 i (lt hi) q hi d
      · rcases h6 d with e | e
        · exact ⟨p, hmem, e⟩
        · exact e
      · rcases h7 d with e | e
        · exact ⟨p, hmem, e⟩
        · exact e
      · rcases h5 d with e | ⟨p, q, hl, e⟩
        · have := pos d hdn
          rw [e] at this
          exact absurd this (lt_irrefl _)
        · exact ⟨p, q, hl, e⟩)
    unfold make
    rw [hp, Option.bind_some, ha, Option.bind_some]
    simp only
    rw [if_pos (by
      simp only [List.all_eq_true, decide_eq_true_eq]
      exact fun d hdr => ⟨(pos d (by rw [List.mem_range] at hdr; omega)).ne', this d (by rw [List.mem_range] at hdr; omega)⟩)]
    exact ⟨_, rfl⟩

/-- **C71, violated.** Neighbors on a straight line parallel to an axis (the example given in the code) can't be meshed: the extent of
cells is zero in the other dimension. -/
theorem line_undefined (hr : rd 0 = 0) (points : List Point) (neighbors : List (List Nat)) (d : Nat) (hd : d ≤ n) (hl : ∀ p ∈ points, ∀ q ∈ points, p d = q d) :
    make rd n points neighbors = none := by
  cases hm : make rd n points neighbors with
  | none => rfl
  | some m =>
    obtain ⟨_, _, h, _⟩ := (defined_iff (rd := rd) (n := n) points neighbors).1 ⟨m, hm⟩
    obtain ⟨p, q, ⟨i, j, _, e1, _, _, e4⟩, h0⟩ := h d hd
    rw [hl p (List.mem_of_getElem? e1) q (List.mem_of_getElem? e4), sub_self] at h0
    exact absurd hr h0

/-! ## All points are inside -/

theorem raw_bounds (hr : Rounding rd) {m : Mesher} {d : Nat} (hc : 0 < m.cellDim d) (hg : m.gridDim d = rd (m.maxCoord d - m.minCoord d)) (x : ℚ) (h1 : m.minCoord d ≤ x) (h2 : x ≤ m.maxCoord d) :
    0 ≤ rd (rd (x - m.minCoord d) / m.cellDim d) ∧ rd (rd (x - m.minCoord d) / m.cellDim d) ≤ rd (m.gridDim d / m.cellDim d) := by
  constructor
  · have a1 : 0 ≤ rd (x - m.minCoord d) := by
      have := hr.mono (x := 0) (y := x - m.minCoord d) (by linarith)
      rwa [hr.zero] at this
    have := hr.mono (x := 0) (y := rd (x - m.minCoord d) / m.cellDim d) (div_nonneg a1 hc.le)
    rwa [hr.zero] at this
  · apply hr.mono
    apply div_le_div_of_nonneg_right _ hc.le
    rw [hg]
    exact hr.mono (by linarith)

theorem floor_lt_round (hr : Rounding rd) (raw : ℚ) (h0 : 0 ≤ raw) (hf : Fits (roundAway (rd (raw + 1 / 2)))) : ⌊raw⌋ < roundAway (rd (raw + 1 / 2)) := by
  have fl := Int.floor_le raw
  have hfl : 0 ≤ ⌊raw⌋ := Int.floor_nonneg.2 h0
  -- either the floor is small enough, or the rounded sum is too large for an int
  have key : ∀ k : ℤ, 0 ≤ k → k < 2 ^ 40 → k ≤ ⌊raw⌋ → k + 1 ≤ roundAway (rd (raw + 1 / 2)) := by
    intro k hk hk' hkf
    have hkq : (k : ℚ) ≤ ⌊raw⌋ := by exact_mod_cast hkf
    have h1 : ((2 * k + 1 : ℤ) : ℚ) / 2 ≤ raw + 1 / 2 := by push_cast; linarith
    have h2 := hr.mono h1
    rw [hr.half _ (by rw [abs_of_nonneg (by omega)]; omega)] at h2
    have hpos : 0 ≤ rd (raw + 1 / 2) := by
      refine le_trans ?_ h2
      push_cast
      have : (0 : ℚ) ≤ k := by exact_mod_cast hk
      linarith
    unfold roundAway
    rw [if_pos hpos, Int.le_floor]
    push_cast at h2 ⊢
    linarith
  by_cases hs : ⌊raw⌋ < 2 ^ 40
  · have := key ⌊raw⌋ hfl hs (le_refl _); omega
  · exfalso
    have := key (2 ^ 39) (by norm_num) (by norm_num) (by omega)
    unfold Fits at hf
    omega

/-- **C71 (inside).** All points, and all positions between the outermost ones, are mapped to cells of the grid. -/
theorem inside (hr : Rounding rd) {points : List Point} {neighbors : List (List Nat)} {m : Mesher} (h : make rd n points neighbors = some m)
    (pos : Point) (hp : ∀ d ≤ n, m.minCoord d ≤ pos d ∧ pos d ≤ m.maxCoord d) :
    ∃ c, m.toLogical rd n pos = some c ∧ ∀ d ≤ n, 0 ≤ c d ∧ c d < m.logicalGridDim d := by
  obtain ⟨_, _, _, _, h5, h6, h7⟩ := extents h
  have key : ∀ d ≤ n, 0 ≤ ⌊rd (rd (pos d - m.minCoord d) / m.cellDim d)⌋ ∧ ⌊rd (rd (pos d - m.minCoord d) / m.cellDim d)⌋ < m.logicalGridDim d := by
    intro d hd
    obtain ⟨a, b⟩ := h6 d hd
    obtain ⟨r1, r2⟩ := raw_bounds hr a (h5 d) (pos d) (hp d hd).1 (hp d hd).2
    refine ⟨Int.floor_nonneg.2 r1, ?_⟩
    rw [h7 d] at b ⊢
    exact lt_of_le_of_lt (Int.floor_le_floor r2) (floor_lt_round hr _ (r1.trans r2) b)
  refine ⟨fun d => ⌊rd (rd (pos d - m.minCoord d) / m.cellDim d)⌋, ?_, key⟩
  unfold Mesher.toLogical
  simp only
  rw [if_pos]
  simp only [List.all_eq_true, decide_eq_true_eq]
  intro d hd
  have hd' : d ≤ n := by rw [List.mem_range] at hd; omega
  obtain ⟨k1, k2⟩ := key d hd'
  have b := (h6 d hd').2
  refine ⟨(h6 d hd').1.ne', ?_⟩
  unfold Fits at b ⊢
  omega

theorem points_inside (hr : Rounding rd) {points : List Point} {neighbors : List (List Nat)} {m : Mesher} (h : make rd n points neighbors = some m)
    (p : Point) (hp : p ∈ points) : ∃ c, m.toLogical rd n p = some c ∧ ∀ d ≤ n, 0 ≤ c d ∧ c d < m.logicalGridDim d :=
  inside hr h p (fun d _ => (extents h).2.2.1 p hp d)

/-- **C71 (tight).** In exact arithmetic, the grid has no superfluous cells: some point is in the last one. -/
theorem tight {points : List Point} {neighbors : List (List Nat)} {m : Mesher} (h : make id n points neighbors = some m) (d : Nat) (hd : d ≤ n) :
    ∃ p ∈ points, ∃ c, m.toLogical id n p = some c ∧ c d = m.logicalGridDim d - 1 := by
  obtain ⟨_, _, _, h4, h5, h6, h7⟩ := extents h
  obtain ⟨_, p, hp, e⟩ := h4 d
  obtain ⟨c, hc, hb⟩ := points_inside exact_rounding h p hp
  refine ⟨p, hp, c, hc, ?_⟩
  unfold Mesher.toLogical at hc
  simp only at hc
  split at hc
  · simp only [Option.some.injEq] at hc
    subst hc
    have hgap : m.gridDim d = p d - m.minCoord d := by rw [h5 d, e]; rfl
    have hnn : 0 ≤ m.gridDim d / m.cellDim d := by
      refine div_nonneg ?_ (h6 d hd).1.le
      rw [hgap]
      have := ((extents h).2.2.1 p hp d).1
      linarith
    simp only [id]
    rw [h7 d]
    simp only [id]
    unfold roundAway
    rw [if_pos (by linarith), ← hgap, add_assoc]
    norm_num
  · cases hc

/-! ## Neighbors -/

/-- **C71 (neighbors).** In exact arithmetic, neighbors are in neighboring cells. -/
theorem neighbors_partial {points : List Point} {neighbors : List (List Nat)} {m : Mesher} (h : make id n points neighbors = some m)
    (p q : Point) (hl : Linked points neighbors p q) (c c' : Nat → ℤ) (hc : m.toLogical id n p = some c) (hc' : m.toLogical id n q = some c') :
    ∀ d ≤ n, |c d - c' d| ≤ 1 := by
  intro d hd
  obtain ⟨h1, _, _, _, _, h6, _⟩ := extents h
  unfold Mesher.toLogical at hc hc'
  simp only at hc hc'
  split at hc
  · split at hc'
    · simp only [Option.some.injEq] at hc hc'
      subst hc hc'
      have hpos := (h6 d hd).1
      have := h1 p q hl d
      simp only [id] at this ⊢
      rw [abs_le] at this ⊢
      have e : (p d - m.minCoord d) / m.cellDim d - (q d - m.minCoord d) / m.cellDim d = (p d - q d) / m.cellDim d := by
        field_simp; ring
      have a1 : (p d - q d) / m.cellDim d ≤ 1 := by rw [div_le_iff₀ hpos]; linarith
      have a2 : -1 ≤ (p d - q d) / m.cellDim d := by rw [le_div_iff₀ hpos]; linarith
      have f1 := Int.floor_le ((p d - m.minCoord d) / m.cellDim d)
      have f2 := Int.lt_floor_add_one ((p d - m.minCoord d) / m.cellDim d)
      have f3 := Int.floor_le ((q d - m.minCoord d) / m.cellDim d)
      have f4 := Int.lt_floor_add_one ((q d - m.minCoord d) / m.cellDim d)
      constructor
      · have : ((⌊(q d - m.minCoord d) / m.cellDim d⌋ : ℤ) : ℚ) < ⌊(p d - m.minCoord d) / m.cellDim d⌋ + 2 := by linarith
        have : ⌊(q d - m.minCoord d) / m.cellDim d⌋ < ⌊(p d - m.minCoord d) / m.cellDim d⌋ + 2 := by exact_mod_cast this
        omega
      · have : ((⌊(p d - m.minCoord d) / m.cellDim d⌋ : ℤ) : ℚ) < ⌊(q d - m.minCoord d) / m.cellDim d⌋ + 2 := by linarith
        have : ⌊(p d - m.minCoord d) / m.cellDim d⌋ < ⌊(q d - m.minCoord d) / m.cellDim d⌋ + 2 := by exact_mod_cast this
        omega
    · cases hc'
  · cases hc

/-- a quotient computed in `double` -/
theorem raw_error {x mn c : ℚ} (hx : Double x) (hm : Double mn) (hc : 0 < c) (hle : mn ≤ x) (hb : rnd (rnd (x - mn) / c) < 2 ^ 31) :
    |rnd (rnd (x - mn) / c) - (x - mn) / c| ≤ 1 / 2 ^ 10 := by
  set a := (x - mn) / c with ha
  have ha0 : 0 ≤ a := div_nonneg (by linarith) hc.le
  set b := rnd (x - mn) / c with hbdef
  have hb0 : 0 ≤ b := div_nonneg (rnd_nonneg (by linarith)) hc.le
  have e1 : |b - a| ≤ a / 2 ^ 53 := by
    have := rnd_sub_rel hx hm
    rw [abs_of_nonneg (by linarith : 0 ≤ x - mn)] at this
    have e : b - a = (rnd (x - mn) - (x - mn)) / c := by rw [hbdef, ha]; ring
    rw [e, abs_div, abs_of_pos hc, div_le_iff₀ hc]
    have : a / 2 ^ 53 * c = (x - mn) / 2 ^ 53 := by rw [ha]; field_simp
    rw [this]; assumption
  have e2 := rnd_abs_error b
  rw [abs_of_nonneg hb0] at e2
  have small : (2 : ℚ) ^ (-1075 : ℤ) ≤ 1 / 2 ^ 53 := by
    have : (2 : ℚ) ^ (-1075 : ℤ) ≤ (2 : ℚ) ^ (-53 : ℤ) := zpow_le_zpow_right₀ (by norm_num) (by norm_num)
    refine this.trans ?_
    norm_num
  rw [abs_le] at e1 e2 ⊢
  have hb1 : b ≤ 2 ^ 32 := by
    by_contra hgt
    push Not at hgt
    have : b - (b / 2 ^ 53 + 1 / 2 ^ 53) ≤ rnd b := by linarith [e2.1]
    have h3 : b / 2 ^ 53 ≤ b / 4 := div_le_div_of_nonneg_left hb0 (by norm_num) (by norm_num)
    norm_num at this hgt hb h3
    linarith
  have ha1 : a ≤ 2 ^ 33 := by
    by_contra hgt
    push Not at hgt
    have : a - a / 2 ^ 53 ≤ b := by linarith [e1.1]
    have h3 : a / 2 ^ 53 ≤ a / 4 := div_le_div_of_nonneg_left ha0 (by norm_num) (by norm_num)
    norm_num at this hgt hb1 h3
    linarith
  have s1 : a / 2 ^ 53 ≤ 1 / 2 ^ 20 := by rw [div_le_iff₀ (by norm_num)]; norm_num at ha1 ⊢; linarith
  have s2 : b / 2 ^ 53 ≤ 1 / 2 ^ 21 := by rw [div_le_iff₀ (by norm_num)]; norm_num at hb1 ⊢; linarith
  norm_num at small s1 s2 e1 e2 ⊢
  constructor <;> linarith [e1.1, e1.2, e2.1, e2.2]

/-- **C71 (neighbors, `double`).** With `double`, neighbors are at most two cells apart. -/
theorem neighbors_double {points : List Point} {neighbors : List (List Nat)} {m : Mesher} (h : make rnd n points neighbors = some m)
    (hd : ∀ p ∈ points, ∀ d, Double (p d)) (p q : Point) (hl : Linked points neighbors p q) (c c' : Nat → ℤ)
    (hc : m.toLogical rnd n p = some c) (hc' : m.toLogical rnd n q = some c') : ∀ d ≤ n, |c d - c' d| ≤ 2 := by
  intro d hdn
  obtain ⟨h1, _, h3, h4, _, h6, _⟩ := extents h
  have hp : p ∈ points := by obtain ⟨_, _, _, e, _⟩ := hl; exact List.mem_of_getElem? e
  have hq : q ∈ points := by obtain ⟨_, _, _, _, _, _, e⟩ := hl; exact List.mem_of_getElem? e
  have hmin : Double (m.minCoord d) := by
    obtain ⟨⟨r, hr, e⟩, _⟩ := h4 d
    rw [e]; exact hd r hr d
  unfold Mesher.toLogical at hc hc'
  simp only at hc hc'
  split at hc
  · rename_i fit
    simp only [List.all_eq_true, decide_eq_true_eq] at fit
    split at hc'
    · rename_i fit'
      simp only [List.all_eq_true, decide_eq_true_eq] at fit'
      simp only [Option.some.injEq] at hc hc'
      subst hc hc'
      have hpos := (h6 d hdn).1
      have lt31 : ∀ r : ℚ, Fits ⌊r⌋ → r < 2 ^ 31 := by
        intro r hr
        have := Int.lt_floor_add_one r
        have h2 : ⌊r⌋ + 1 ≤ 2 ^ 31 := by unfold Fits at hr; omega
        have h3 : ((⌊r⌋ + 1 : ℤ) : ℚ) ≤ ((2 ^ 31 : ℤ) : ℚ) := by exact_mod_cast h2
        push_cast at h3
        linarith
      have r1 := raw_error (hd p hp d) hmin hpos (h3 p hp d).1 (lt31 _ (fit d (List.mem_range.2 (by omega))).2)
      have r2 := raw_error (hd q hq d) hmin hpos (h3 q hq d).1 (lt31 _ (fit' d (List.mem_range.2 (by omega))).2)
      have hdist : |p d - q d| ≤ m.cellDim d * (1 + 1 / 2 ^ 10) := by
        have := h1 p q hl d
        have e := rnd_sub_rel (hd p hp d) (hd q hq d)
        have e2 : |p d - q d| ≤ |rnd (p d - q d)| + |p d - q d| / 2 ^ 53 := by
          have := abs_sub_abs_le_abs_sub (p d - q d) (rnd (p d - q d))
          rw [abs_sub_comm (p d - q d) (rnd (p d - q d))] at this
          linarith
        norm_num at e2 ⊢
        linarith
      have e : (p d - m.minCoord d) / m.cellDim d - (q d - m.minCoord d) / m.cellDim d = (p d - q d) / m.cellDim d := by
        field_simp; ring
      rw [abs_le] at hdist r1 r2 ⊢
      have a1 : (p d - q d) / m.cellDim d ≤ 1 + 1 / 2 ^ 10 := by rw [div_le_iff₀ hpos]; linarith
      have a2 : -(1 + 1 / 2 ^ 10) ≤ (p d - q d) / m.cellDim d := by rw [le_div_iff₀ hpos]; linarith
      simp only
      generalize rnd (rnd (p d - m.minCoord d) / m.cellDim d) = x at *
      generalize rnd (rnd (q d - m.minCoord d) / m.cellDim d) = y at *
      have f1 := Int.floor_le x
      have f2 := Int.lt_floor_add_one x
      have f3 := Int.floor_le y
      have f4 := Int.lt_floor_add_one y
      norm_num at r1 r2 a1 a2
      constructor
      · have : ((⌊y⌋ : ℤ) : ℚ) < ⌊x⌋ + 3 := by linarith [r1.1, r1.2, r2.1, r2.2]
        have : ⌊y⌋ < ⌊x⌋ + 3 := by exact_mod_cast this
        omega
      · have : ((⌊x⌋ : ℤ) : ℚ) < ⌊y⌋ + 3 := by linarith [r1.1, r1.2, r2.1, r2.2]
        have : ⌊x⌋ < ⌊y⌋ + 3 := by exact_mod_cast this
        omega
    · cases hc'
  · cases hc

/-- three points on the x axis: 0, the largest number below 1, and 2 -/
def wide : List Point := [fun _ => 0, fun _ => 1 - 1 / 2 ^ 53, fun _ => 2]

theorem rnd_tie : rnd (1 + 1 / 2 ^ 53) = 1 := by
  have hl : lastBit (1 + 1 / 2 ^ 53) = -52 := by
    unfold lastBit
    rw [abs_of_pos (by norm_num)]
    have : Int.log 2 (1 + 1 / 2 ^ 53 : ℚ) = 0 := by
      rw [Int.log_of_one_le_right _ (by norm_num)]
      have : ⌊(1 + 1 / 2 ^ 53 : ℚ)⌋₊ = 1 := by rw [Nat.floor_eq_iff (by norm_num)]; norm_num
      rw [this]
      norm_num
    rw [this]; norm_num
  unfold rnd
  rw [hl]
  have hz : (2 : ℚ) ^ (-52 : ℤ) = 1 / 2 ^ 52 := by norm_num
  rw [hz]
  have hx : (1 + 1 / 2 ^ 53 : ℚ) / (1 / 2 ^ 52) = 2 ^ 52 + 1 / 2 := by norm_num
  rw [hx]
  have hf : ⌊(2 ^ 52 + 1 / 2 : ℚ)⌋ = 2 ^ 52 := by rw [Int.floor_eq_iff]; norm_num
  have : nearestEven (2 ^ 52 + 1 / 2) = 2 ^ 52 := by
    unfold nearestEven
    rw [hf]
    norm_num
  rw [this]
  norm_num

/-- **C71, violated.** With `double`, neighbors may be two cells apart: 1 - 2^-53 is a neighbor of 0 and 2, the distance of the latter
is rounded to 1, so that the points are in the cells 0 and 2. -/
theorem neighbors_negation : ∃ m, make rnd 0 wide [[1], [0, 2], [1]] = some m ∧
    (∃ c, m.toLogical rnd 0 (fun _ => 1 - 1 / 2 ^ 53) = some c ∧ c 0 = 0) ∧ ∃ c, m.toLogical rnd 0 (fun _ => 2) = some c ∧ c 0 = 2 := by
  have d0 : rnd 0 = 0 := rnd_zero
  have dp : Double (1 - 1 / 2 ^ 53) := ⟨2 ^ 53 - 1, -53, by norm_num, by norm_num, by norm_num⟩
  have d1 : rnd (1 - 1 / 2 ^ 53) = 1 - 1 / 2 ^ 53 := rnd_double dp
  have d2 : rnd 2 = 2 := rnd_double (double_int (k := 2) (by norm_num))
  have d3 : rnd (5 / 2) = 5 / 2 := rnd_double (double_half (k := 5) (by norm_num))
  have m1 : rnd (0 - (1 - 1 / 2 ^ 53)) = -(1 - 1 / 2 ^ 53) := by rw [show (0 : ℚ) - (1 - 1 / 2 ^ 53) = -(1 - 1 / 2 ^ 53) by ring, rnd_neg, d1]
  have m2 : rnd (1 - 1 / 2 ^ 53 - 0) = 1 - 1 / 2 ^ 53 := by rw [sub_zero, d1]
  have m3 : rnd (1 - 1 / 2 ^ 53 - 2) = -1 := by rw [show (1 : ℚ) - 1 / 2 ^ 53 - 2 = -(1 + 1 / 2 ^ 53) by ring, rnd_neg, rnd_tie]
  have m4 : rnd (2 - (1 - 1 / 2 ^ 53)) = 1 := by rw [show (2 : ℚ) - (1 - 1 / 2 ^ 53) = 1 + 1 / 2 ^ 53 by ring, rnd_tie]
  have hloop : overPoints rnd wide [[1], [0, 2], [1]] (List.range wide.length) (fun _ => 0, fun _ => 0, fun _ => 0) = some (fun _ => 1, fun _ => 0, fun _ => 2) := by
    simp only [wide, List.length_cons, List.length_nil, List.range_succ, List.range_zero, List.nil_append, List.cons_append, overPoints, overNeighbors,
      List.getElem?_cons_zero, List.getElem?_cons_succ, Option.bind_some, m1, m2, m3, m4, zero_add]
    congr 1
    refine Prod.ext ?_ (Prod.ext ?_ ?_)
    · funext d; norm_num
    · funext d; norm_num
    · funext d; norm_num
  have hm : make rnd 0 wide [[1], [0, 2], [1]] = some ⟨fun _ => 3, fun _ => 1, fun _ => 2, fun _ => 0, fun _ => 2⟩ := by
    unfold make
    rw [show wide.head? = some (fun _ => 0) from rfl, Option.bind_some, hloop, Option.bind_some]
    have hr : roundAway (5 / 2) = 3 := by
      unfold roundAway
      rw [if_pos (by norm_num)]
      norm_num
    simp only [sub_zero, d2, div_one, show (2 : ℚ) + 1 / 2 = 5 / 2 by norm_num, d3, hr]
    rw [if_pos]
    rw [List.all_eq_true]
    intro d _
    rw [decide_eq_true_eq]
    exact ⟨by norm_num, by decide⟩
  refine ⟨_, hm, ⟨fun _ => 0, ?_, rfl⟩, ⟨fun _ => 2, ?_, rfl⟩⟩
  · unfold Mesher.toLogical
    simp only [sub_zero, d1, div_one]
    have : ⌊(1 - 1 / 2 ^ 53 : ℚ)⌋ = 0 := by rw [Int.floor_eq_iff]; norm_num
    rw [this, if_pos]
    simp only [List.all_eq_true, decide_eq_true_eq]
    intro d _
    exact ⟨by norm_num, by decide⟩
  · unfold Mesher.toLogical
    simp only [sub_zero, d2, div_one]
    have : ⌊(2 : ℚ)⌋ = 2 := by rw [Int.floor_eq_iff]; norm_num
    rw [this, if_pos]
    simp only [List.all_eq_true, decide_eq_true_eq]
    intro d _
    exact ⟨by norm_num, by decide⟩

/-! ## Examples -/

/-- the first test of the library: cells of extent 6 × 3, a grid of 2 × 3 cells -/
def pt (x y : ℚ) : Point := fun d => if d = 0 then x else y
def exPoints : List Point := [pt 1 2, pt 3 0, pt 5 5, pt 9 0, pt 5 3, pt 7 1, pt 8 4, pt 1 8]
def exHoods : List (List Nat) := [[1, 2], [0, 3, 5], [0, 4], [1, 5], [2, 5], [1, 3, 4], [], []]

example : ((make id 1 exPoints exHoods).map fun m => (m.cellDim 0, m.cellDim 1, m.logicalGridDim 0, m.logicalGridDim 1)) = some (6, 3, 2, 3) := by decide +kernel
example : ((make id 1 exPoints exHoods).bind fun m => (m.toLogical id 1 (pt (99 / 100) 0)).map fun c => (c 0, c 1)) = some (-1, 0) := by decide +kernel
example : ((make id 1 exPoints exHoods).bind fun m => (m.toLogical id 1 (pt 9 0)).map fun c => (c 0, c 1)) = some (1, 0) := by decide +kernel

/-- three points on a line in two dimensions -/
example : make rnd 1 [pt 0 0, pt 1 0, pt 2 0] [[1], [0, 2], [1]] = none :=
  line_undefined rnd_zero _ _ 1 (le_refl _) (by
    intro p hp q hq
    simp only [List.mem_cons, List.not_mem_nil, or_false] at hp hq
    rcases hp with rfl | rfl | rfl <;> rcases hq with rfl | rfl | rfl <;> rfl)

end LGD.C71
