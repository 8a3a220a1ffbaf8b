import Verif.Tune.SimplexModel
import Verif.Tune.Search

/-!
# The simplex algorithm: what its loop maintains
-/

namespace LGD.Tune

/-! ## Points -/

theorem set_eq_add {p : Param} (h : Aligned p) (x : ℚ) : ∃ s, p.setValue x = p.add s ∧ (x = p.value → s = 0) := by
  cases p with
  | ival p =>
    have hg : 0 < p.gran := h.2.1
    refine ⟨x - p.index, ?_, fun e => sub_eq_zero.2 e⟩
    simp only [Param.setValue, Param.add, if_pos hg, add_sub_cancel]
  | dset p =>
    refine ⟨0, ?_, fun _ => rfl⟩
    have : trunc ((p.index : ℚ) + 0) = p.index := by rw [add_zero, trunc_int]
    simp only [Param.setValue, Param.add, this]

theorem set_aligned {p : Param} (h : Aligned p) (x : ℚ) : Aligned (p.setValue x) := by
  obtain ⟨s, e, -⟩ := set_eq_add h x
  rw [e]
  exact add_aligned h s

theorem set_self {p : Param} (h : Aligned p) {x : ℚ} (hx : x = p.value) : p.setValue x = p := by
  obtain ⟨s, e, hs⟩ := set_eq_add h x
  rw [e, hs hx]
  obtain ⟨-, hg, m, hm, hmax, j, hj, hv, -⟩ := id h
  have := add_gran h hmax hv 0
  simp only [Int.cast_zero, zero_mul, add_zero] at this
  rw [this]
  have hc : clampTo m (j : Int) = j := by
    unfold clampTo
    rw [if_neg (by omega), if_neg (by omega)]; omega
  rw [hc]
  exact at_self h hv

theorem set_dset {p : Param} (h : Aligned p) {q : DSet} (hq : p = .dset q) (x : ℚ) : p.setValue x = p := by
  have : p.setValue x = p.setValue p.value := by subst hq; rfl
  rw [this, set_self h rfl]

/-- points of the grid with the original values of discrete parameters -/
def Grid (ps x : List Param) : Prop := x.length = ps.length ∧ ∀ (i : Nat) (h : i < ps.length) (h' : i < x.length), Same ps[i] x[i] ∧ Aligned x[i] ∧ ∀ q, ps[i] = .dset q → x[i] = ps[i]

theorem Grid.domain {ps x : List Param} (h : Grid ps x) : InDomain ps x := ⟨h.1, fun i hi hi' => ⟨(h.2 i hi hi').1, (h.2 i hi hi').2.1.1⟩⟩

theorem setAll_grid {ps x : List Param} (h : Grid ps x) (f : Nat → ℚ) : Grid ps (setAll x f) := by
  have hl : (setAll x f).length = x.length := by simp [setAll]
  refine ⟨by rw [hl]; exact h.1, fun i hi hi' => ?_⟩
  obtain ⟨h1, h2, h3⟩ := h.2 i hi (by rw [← hl]; exact hi')
  have e : (setAll x f)[i] = x[i].setValue (f i) := by simp [setAll]
  rw [e]
  refine ⟨h1.trans (same_set _ _), set_aligned h2 _, fun q hq => ?_⟩
  have h4 := h3 q hq
  rw [set_dset h2 (h4.trans hq), h4]

theorem setAll_self {ps x : List Param} (h : Grid ps x) (f : Nat → ℚ) (hf : ∀ j, f j = at' x j) : setAll x f = x := by
  refine List.ext_getElem (by simp [setAll]) fun i h1 h2 => ?_
  have e : (setAll x f)[i] = x[i].setValue (f i) := by simp [setAll]
  rw [e]
  refine set_self (h.2 i (by rw [← h.1]; exact h2) h2).2.1 ?_
  rw [hf, at', List.getElem?_eq_getElem h2]
  rfl

theorem merge_self {ps x : List Param} (h : Grid ps x) : merge x x = x := setAll_self h _ fun j => by ring

theorem shift_grid {ps x : List Param} (h : Grid ps x) (i : Nat) (d : ℚ) : Grid ps (x.modify i fun p => shift p d) := by
  refine ⟨by rw [List.length_modify]; exact h.1, fun k hk hk' => ?_⟩
  rw [List.length_modify] at hk'
  obtain ⟨h1, h2, h3⟩ := h.2 k hk hk'
  rw [List.getElem_modify]
  split
  · unfold shift
    dsimp only
    split
    · refine ⟨(h1.trans (same_set _ _)).trans (same_set _ _), set_aligned (set_aligned h2 _) _, fun q hq => ?_⟩
      have h4 := h3 q hq
      rw [set_dset h2 (h4.trans hq), set_dset h2 (h4.trans hq), h4]
    · refine ⟨h1.trans (same_set _ _), set_aligned h2 _, fun q hq => ?_⟩
      have h4 := h3 q hq
      rw [set_dset h2 (h4.trans hq), h4]
  · exact ⟨h1, h2, h3⟩

/-! ## Best and worst vertices -/

theorem minFold (s : List Vertex) : ∀ (k : Nat) (a : ℚ × Nat),
    let r := (s.zipIdx k).foldl (fun a v => if v.1.fit ≤ a.1 then (v.1.fit, v.2) else a) a
    r.1 ≤ a.1 ∧ (∀ v ∈ s, r.1 ≤ v.fit) ∧ (r = a ∨ ∃ i, ∃ h : i < s.length, r = (s[i].fit, k + i)) := by
  induction s with
  | nil => intro k a; simp
  | cons v s ih =>
    intro k a
    obtain ⟨h1, h2, h3⟩ := ih (k + 1) (if v.fit ≤ a.1 then (v.fit, k) else a)
    rw [List.zipIdx_cons, List.foldl_cons]
    have hle : (if v.fit ≤ a.1 then (v.fit, k) else a).1 ≤ a.1 ∧ (if v.fit ≤ a.1 then (v.fit, k) else a).1 ≤ v.fit := by
      split
      · next h => exact ⟨h, le_refl _⟩
      · next h => exact ⟨le_refl _, (not_le.1 h).le⟩
    refine ⟨le_trans h1 hle.1, ?_, ?_⟩
    · intro w hw
      rcases List.mem_cons.1 hw with rfl | hw
      · exact le_trans h1 hle.2
      · exact h2 w hw
    · rcases h3 with h3 | ⟨i, hi, h3⟩
      · by_cases hc : v.fit ≤ a.1
        · right
          refine ⟨0, by simp, ?_⟩
          rw [if_pos hc] at h3
          dsimp only
          rw [if_pos hc]
          exact h3
        · left
          rw [if_neg hc] at h3
          dsimp only
          rw [if_neg hc]
          exact h3
      · right
        refine ⟨i + 1, by simp [hi], ?_⟩
        dsimp only at h3 ⊢
        rw [h3]
        simp
        omega

theorem maxFold (s : List Vertex) : ∀ (k : Nat) (a : ℚ × Nat),
    let r := (s.zipIdx k).foldl (fun a v => if a.1 ≤ v.1.fit then (v.1.fit, v.2) else a) a
    a.1 ≤ r.1 ∧ (∀ v ∈ s, v.fit ≤ r.1) ∧ (r = a ∨ ∃ i, ∃ h : i < s.length, r = (s[i].fit, k + i)) ∧ ((∃ v ∈ s, a.1 ≤ v.fit) → ∃ i, ∃ h : i < s.length, r = (s[i].fit, k + i)) := by
  induction s with
  | nil => intro k a; simp
  | cons v s ih =>
    intro k a
    obtain ⟨h1, h2, h3, h4⟩ := ih (k + 1) (if a.1 ≤ v.fit then (v.fit, k) else a)
    rw [List.zipIdx_cons, List.foldl_cons]
    have hle : a.1 ≤ (if a.1 ≤ v.fit then (v.fit, k) else a).1 ∧ v.fit ≤ (if a.1 ≤ v.fit then (v.fit, k) else a).1 := by
      split
      · next h => exact ⟨h, le_refl _⟩
      · next h => exact ⟨le_refl _, (not_le.1 h).le⟩
    have up : (∃ i, ∃ h : i < s.length, (s.zipIdx (k + 1)).foldl (fun a v => if a.1 ≤ v.1.fit then (v.1.fit, v.2) else a) (if a.1 ≤ v.fit then (v.fit, k) else a) = (s[i].fit, k + 1 + i)) →
        ∃ i, ∃ h : i < (v :: s).length, (s.zipIdx (k + 1)).foldl (fun a v => if a.1 ≤ v.1.fit then (v.1.fit, v.2) else a) (if a.1 ≤ v.fit then (v.fit, k) else a) = ((v :: s)[i].fit, k + i) := by
      rintro ⟨i, hi, e⟩
      refine ⟨i + 1, by simp [hi], ?_⟩
      rw [e]
      simp
      omega
    refine ⟨le_trans hle.1 h1, ?_, ?_, ?_⟩
    · intro w hw
      rcases List.mem_cons.1 hw with rfl | hw
      · exact le_trans hle.2 h1
      · exact h2 w hw
    · rcases h3 with h3 | h3
      · by_cases hc : a.1 ≤ v.fit
        · right
          refine ⟨0, by simp, ?_⟩
          rw [if_pos hc] at h3
          dsimp only
          rw [if_pos hc]
          exact h3
        · left
          rw [if_neg hc] at h3
          dsimp only
          rw [if_neg hc]
          exact h3
      · exact Or.inr (up h3)
    · rintro ⟨w, hw, hwa⟩
      rcases h3 with h3 | h3
      · by_cases hc : a.1 ≤ v.fit
        · refine ⟨0, by simp, ?_⟩
          rw [if_pos hc] at h3
          dsimp only
          rw [if_pos hc]
          exact h3
        · rcases List.mem_cons.1 hw with rfl | hw
          · exact absurd hwa hc
          · refine up (h4 ⟨w, hw, ?_⟩)
            rw [if_neg hc]
            exact hwa
      · exact up h3

theorem minIdx_lt {s : List Vertex} (h : s ≠ []) : minIdx s < s.length := by
  have hl : 0 < s.length := List.length_pos_iff.2 h
  obtain ⟨-, -, h3⟩ := minFold s 0 (dblMax, 0)
  unfold minIdx
  rcases h3 with h3 | ⟨i, hi, h3⟩ <;> rw [h3] <;> simp_all

theorem minIdx_le {s : List Vertex} (h : s ≠ []) (hb : ∀ v ∈ s, v.fit ≤ dblMax) : ∀ v ∈ s, (vtx s (minIdx s)).fit ≤ v.fit := by
  obtain ⟨-, h2, h3⟩ := minFold s 0 (dblMax, 0)
  rcases h3 with h3 | ⟨i, hi, h3⟩
  · rw [h3] at h2
    intro v hv
    have hl : 0 < s.length := List.length_pos_iff.2 h
    have e : minIdx s = 0 := by unfold minIdx; rw [h3]
    rw [e, vtx]
    have h0 : (s.getD 0 ⟨[], -1⟩) ∈ s := by
      rw [List.getD_eq_getElem?_getD, List.getElem?_eq_getElem hl]; exact List.getElem_mem hl
    exact le_trans (hb _ h0) (h2 v hv)
  · rw [h3] at h2
    intro v hv
    have e : minIdx s = i := by unfold minIdx; rw [h3]; simp
    rw [e, vtx, List.getD_eq_getElem?_getD, List.getElem?_eq_getElem hi]
    exact h2 v hv

theorem maxIdx_ge {s : List Vertex} (h : s ≠ []) (hb : ∀ v ∈ s, dblMin ≤ v.fit) : vtx s (maxIdx s) ∈ s ∧ ∀ v ∈ s, v.fit ≤ (vtx s (maxIdx s)).fit := by
  obtain ⟨v, hv⟩ := List.exists_mem_of_ne_nil s h
  obtain ⟨-, h2, -, h4⟩ := maxFold s 0 (dblMin, 0)
  obtain ⟨i, hi, h3⟩ := h4 ⟨v, hv, hb v hv⟩
  rw [h3] at h2
  have e : maxIdx s = i := by unfold maxIdx; rw [h3]; simp
  rw [e, vtx, List.getD_eq_getElem?_getD, List.getElem?_eq_getElem hi]
  exact ⟨List.getElem_mem hi, h2⟩

/-- without positive fitness the first vertex counts as the best -/
theorem maxIdx_neg {s : List Vertex} (h : ∀ v ∈ s, v.fit < dblMin) : maxIdx s = 0 := by
  have key : ∀ (s : List Vertex) (k : Nat), (∀ v ∈ s, v.fit < dblMin) → (s.zipIdx k).foldl (fun a v => if a.1 ≤ v.1.fit then (v.1.fit, v.2) else a) (dblMin, 0) = (dblMin, 0) := by
    intro s
    induction s with
    | nil => intro k _; rfl
    | cons v s ih =>
      intro k h
      rw [List.zipIdx_cons, List.foldl_cons, if_neg (not_le.2 (h v (by simp)))]
      exact ih _ fun w hw => h w (List.mem_cons_of_mem _ hw)
  unfold maxIdx
  rw [key s 0 h]

/-- a point isn't better than all vertices unless `comperator` yields -1 -/
theorem comperator_le (s : List Vertex) (f : ℚ) : ∀ r : Int, -1 ≤ r →
    r ≤ s.foldl (fun r v => let r := if v.fit = f ∧ r = -1 then r + 1 else r; if f < v.fit then r + 1 else r) r ∧
    (s.foldl (fun r v => let r := if v.fit = f ∧ r = -1 then r + 1 else r; if f < v.fit then r + 1 else r) r ≠ r → ∃ v ∈ s, f ≤ v.fit) := by
  induction s with
  | nil => intro r _; simp
  | cons v s ih =>
    intro r hr
    rw [List.foldl_cons]
    by_cases hle : f ≤ v.fit
    · refine ⟨?_, fun _ => ⟨v, by simp, hle⟩⟩
      have hr' : r ≤ (let r := if v.fit = f ∧ r = -1 then r + 1 else r; if f < v.fit then r + 1 else r) := by
        dsimp only
        split <;> split <;> omega
      exact le_trans hr' (ih _ (by omega)).1
    · have e : (let r := if v.fit = f ∧ r = -1 then r + 1 else r; if f < v.fit then r + 1 else r) = r := by
        dsimp only
        rw [if_neg (fun h => hle h.le), if_neg (fun h => hle h.1.symm.le)]
      rw [e]
      obtain ⟨h1, h2⟩ := ih r hr
      exact ⟨h1, fun h => by obtain ⟨w, hw, hf⟩ := h2 h; exact ⟨w, List.mem_cons_of_mem _ hw, hf⟩⟩

/-! ## The loop -/

/-- what holds between iterations -/
structure XInv (eval : List Param → ℚ) (ps : List Param) (t : XSt) : Prop where
  len : t.simplex.length = ps.length + 1
  grid : ∀ v ∈ t.simplex, Grid ps v.pt
  fit : ∀ v ∈ t.simplex, v.fit = eval v.pt
  seen : ∀ v ∈ t.simplex, v.pt ∈ t.seen
  dom : ∀ x ∈ t.seen, Grid ps x
  best : ∀ x ∈ t.seen, x ∈ t.dropped ∨ ∃ v ∈ t.simplex, eval x ≤ v.fit
  start : ∃ v ∈ t.simplex, eval ps ≤ v.fit

/-- something as good as every vertex remains when the worst one is replaced -/
theorem others {s : List Vertex} (hl : 2 ≤ s.length) (hb : ∀ v ∈ s, v.fit ≤ dblMax) (w : Vertex) : ∀ v ∈ s, ∃ u ∈ s.set (minIdx s) w, v.fit ≤ u.fit := by
  intro v hv
  have hne : s ≠ [] := fun e => by rw [e] at hl; simp at hl
  have hm := minIdx_lt hne
  have hmin := minIdx_le hne hb
  obtain ⟨j, hj, rfl⟩ := List.mem_iff_getElem.1 hv
  have keep : ∀ k, (h : k < s.length) → k ≠ minIdx s → s[k] ∈ s.set (minIdx s) w := by
    intro k hk hkm
    rw [List.mem_iff_getElem]
    exact ⟨k, by simpa using hk, by rw [List.getElem_set_ne (Ne.symm hkm)]⟩
  by_cases hjm : j = minIdx s
  · obtain ⟨k, hk, hkm⟩ : ∃ k, k < s.length ∧ k ≠ minIdx s := by
      by_cases h0 : minIdx s = 0
      · exact ⟨1, by omega, by omega⟩
      · exact ⟨0, by omega, by omega⟩
    refine ⟨s[k], keep k hk hkm, ?_⟩
    have := hmin s[k] (List.getElem_mem hk)
    rw [vtx, List.getD_eq_getElem?_getD, List.getElem?_eq_getElem hm] at this
    simpa [hjm] using this
  · exact ⟨s[j], keep j hj hjm, le_refl _⟩

theorem mem_put {s : List Vertex} (hl : s ≠ []) (w : Vertex) : w ∈ s.set (minIdx s) w := by
  rw [List.mem_iff_getElem]
  exact ⟨minIdx s, by simpa using minIdx_lt hl, by simp⟩

theorem evalAll_new {eval : List Param → ℚ} {ps : List Param} {t : XSt} {s : List Vertex} (hl : s.length = ps.length + 1) (hneg : ∀ v ∈ s, v.fit = -1) (hg : ∀ v ∈ s, Grid ps v.pt)
    (hdom : ∀ x ∈ t.seen, Grid ps x) (hold : ∀ x ∈ t.seen, x ∈ t.dropped ∨ ∃ v ∈ t.simplex, eval x ≤ v.fit) (hbest : ∀ v ∈ t.simplex, ∃ u ∈ s, v.fit ≤ eval u.pt) (hstart : ∃ u ∈ s, eval ps ≤ eval u.pt) (seen' : List (List Param)) (hs : ∀ x ∈ seen', x ∈ t.seen ∨ Grid ps x ∧ ∃ v ∈ t.simplex, eval x ≤ v.fit) (m : ℚ) (d : Bool) :
    XInv eval ps (evalAll eval ⟨s, m, seen', t.dropped, d⟩) := by
  have hneg' : ∀ v ∈ s, v.fit < 0 := fun v hv => by rw [hneg v hv]; norm_num
  have hall : s.filter (fun v => decide (v.fit < 0)) = s := List.filter_eq_self.2 fun v hv => by simpa using hneg' v hv
  have hmap : s.map (fun v => if v.fit < 0 then (⟨v.pt, eval v.pt⟩ : Vertex) else v) = s.map fun v => ⟨v.pt, eval v.pt⟩ :=
    List.map_congr_left fun v hv => if_pos (hneg' v hv)
  unfold evalAll
  dsimp only
  rw [hall, hmap]
  refine ⟨by simpa using hl, ?_, ?_, ?_, ?_, ?_, by obtain ⟨u, hu, h⟩ := hstart; exact ⟨_, List.mem_map_of_mem hu, h⟩⟩
  · intro v hv
    obtain ⟨u, hu, rfl⟩ := List.mem_map.1 hv
    exact hg u hu
  · intro v hv
    obtain ⟨u, hu, rfl⟩ := List.mem_map.1 hv
    rfl
  · intro v hv
    obtain ⟨u, hu, rfl⟩ := List.mem_map.1 hv
    exact List.mem_append_right _ (List.mem_map.2 ⟨u, hu, rfl⟩)
  · intro x hx
    rcases List.mem_append.1 hx with hx | hx
    · rcases hs x hx with hx | hx
      · exact hdom x hx
      · exact hx.1
    · obtain ⟨u, hu, rfl⟩ := List.mem_map.1 hx
      exact hg u hu
  · have lift : ∀ x, (∃ v ∈ t.simplex, eval x ≤ v.fit) → ∃ v ∈ s.map (fun v => (⟨v.pt, eval v.pt⟩ : Vertex)), eval x ≤ v.fit := by
      rintro x ⟨v, hv, hx⟩
      obtain ⟨u, hu, hvu⟩ := hbest v hv
      exact ⟨_, List.mem_map_of_mem hu, le_trans hx hvu⟩
    intro x hx
    rcases List.mem_append.1 hx with hx | hx
    · rcases hs x hx with hx | hx
      · exact (hold x hx).imp id (lift x)
      · exact Or.inr (lift x hx.2)
    · obtain ⟨u, hu, rfl⟩ := List.mem_map.1 hx
      exact Or.inr ⟨_, List.mem_map_of_mem hu, le_refl _⟩

/-- limits of the evaluator -/
def Bounded (eval : List Param → ℚ) : Prop := ∀ x, dblMin ≤ eval x ∧ eval x ≤ dblMax

section
variable {eval : List Param → ℚ} {ps : List Param} {t : XSt}

theorem XInv.ne (h : XInv eval ps t) : t.simplex ≠ [] := fun e => by have := h.len; rw [e] at this; simp at this

theorem XInv.max (h : XInv eval ps t) (hb : Bounded eval) : ∀ v ∈ t.simplex, v.fit ≤ dblMax := fun v hv => by rw [h.fit v hv]; exact (hb _).2

theorem XInv.min (h : XInv eval ps t) (hb : Bounded eval) : ∀ v ∈ t.simplex, dblMin ≤ v.fit := fun v hv => by rw [h.fit v hv]; exact (hb _).1

theorem XInv.zero (h : XInv eval ps t) : Grid ps (vtx t.simplex 0).pt := by
  have hl : 0 < t.simplex.length := by rw [h.len]; omega
  have : vtx t.simplex 0 ∈ t.simplex := by rw [vtx, List.getD_eq_getElem?_getD, List.getElem?_eq_getElem hl]; exact List.getElem_mem hl
  exact h.grid _ this

/-- the worst vertex is replaced by `w`; `extra` was evaluated -/
theorem put_inv (h : XInv eval ps t) (hb : Bounded eval) (hn : 1 ≤ ps.length) {w : List Param} (hw : Grid ps w) (extra drop : List (List Param)) (hwe : w ∈ extra)
    (hx : ∀ x ∈ extra, Grid ps x ∧ (x = w ∨ x ∈ drop ∨ ∃ v ∈ t.simplex, eval x ≤ v.fit)) :
    XInv eval ps ⟨t.simplex.set (minIdx t.simplex) ⟨w, eval w⟩, t.mult, t.seen ++ extra, t.dropped ++ drop, t.done⟩ := by
  have hl : 2 ≤ t.simplex.length := by rw [h.len]; omega
  have ho := others hl (h.max hb) ⟨w, eval w⟩
  have hmem : ∀ v ∈ t.simplex.set (minIdx t.simplex) ⟨w, eval w⟩, v ∈ t.simplex ∨ v = ⟨w, eval w⟩ := fun v hv => List.mem_or_eq_of_mem_set hv
  have lift : ∀ x, (∃ v ∈ t.simplex, eval x ≤ v.fit) → ∃ v ∈ t.simplex.set (minIdx t.simplex) ⟨w, eval w⟩, eval x ≤ v.fit := by
    rintro x ⟨v, hv, hx⟩
    obtain ⟨u, hu, hvu⟩ := ho v hv
    exact ⟨u, hu, le_trans hx hvu⟩
  refine ⟨by simpa using h.len, ?_, ?_, ?_, ?_, ?_, lift ps h.start⟩
  · intro v hv
    rcases hmem v hv with hv | rfl
    · exact h.grid v hv
    · exact hw
  · intro v hv
    rcases hmem v hv with hv | rfl
    · exact h.fit v hv
    · rfl
  · intro v hv
    rcases hmem v hv with hv | rfl
    · exact List.mem_append_left _ (h.seen v hv)
    · exact List.mem_append_right _ hwe
  · intro x hx'
    rcases List.mem_append.1 hx' with hx' | hx'
    · exact h.dom x hx'
    · exact (hx x hx').1
  · intro x hx'
    rcases List.mem_append.1 hx' with hx' | hx'
    · exact (h.best x hx').imp (fun hd => List.mem_append_left _ hd) (lift x)
    · rcases (hx x hx').2 with rfl | hd | hv
      · exact Or.inr ⟨_, mem_put h.ne _, le_refl _⟩
      · exact Or.inl (List.mem_append_right _ hd)
      · exact Or.inr (lift x hv)

/-- nothing but evaluations -/
theorem keep_inv (h : XInv eval ps t) (extra : List (List Param)) (hx : ∀ x ∈ extra, Grid ps x ∧ ∃ v ∈ t.simplex, eval x ≤ v.fit) :
    XInv eval ps { t with seen := t.seen ++ extra } := by
  refine ⟨h.len, h.grid, h.fit, fun v hv => List.mem_append_left _ (h.seen v hv), ?_, ?_, h.start⟩
  · intro x hx'
    rcases List.mem_append.1 hx' with hx' | hx'
    · exact h.dom x hx'
    · exact (hx x hx').1
  · intro x hx'
    rcases List.mem_append.1 hx' with hx' | hx'
    · exact h.best x hx'
    · exact Or.inr (hx x hx').2

theorem move_inv (h : XInv eval ps t) (hb : Bounded eval) (hn : 1 ≤ ps.length) : XInv eval ps (xMove eval t) ∧ ∀ x ∈ t.seen, x ∈ (xMove eval t).seen := by
  have h0 := h.zero
  have hr : Grid ps (reflected t.simplex) := setAll_grid h0 _
  have hc : Grid ps (centre t.simplex) := setAll_grid h0 _
  have he : Grid ps (expansion t.simplex) := setAll_grid h0 _
  have ho : Grid ps (outside t.simplex) := setAll_grid hc _
  have hi : Grid ps (inside t.simplex) := setAll_grid hc _
  obtain ⟨hmx, hmax⟩ := maxIdx_ge h.ne (h.min hb)
  have hw : vtx t.simplex (minIdx t.simplex) ∈ t.simplex := by
    have := minIdx_lt h.ne
    rw [vtx, List.getD_eq_getElem?_getD, List.getElem?_eq_getElem this]; exact List.getElem_mem this
  have hle : comperator t.simplex (eval (reflected t.simplex)) ≠ -1 → ∃ v ∈ t.simplex, eval (reflected t.simplex) ≤ v.fit :=
    (comperator_le t.simplex _ (-1) (le_refl _)).2
  unfold xMove
  dsimp only
  simp only [List.append_assoc, put]
  split
  · split
    · refine ⟨put_inv h hb hn he ([reflected t.simplex] ++ [expansion t.simplex]) [reflected t.simplex] (by simp) ?_, fun x hx => List.mem_append_left _ hx⟩
      intro x hx
      simp only [List.cons_append, List.nil_append, List.mem_cons, List.not_mem_nil, or_false] at hx
      rcases hx with rfl | rfl
      · exact ⟨hr, Or.inr (Or.inl (by simp))⟩
      · exact ⟨he, Or.inl rfl⟩
    · next hlt =>
      have := put_inv h hb hn hr ([reflected t.simplex] ++ [expansion t.simplex]) [] (by simp) (by
        intro x hx
        simp only [List.cons_append, List.nil_append, List.mem_cons, List.not_mem_nil, or_false] at hx
        rcases hx with rfl | rfl
        · exact ⟨hr, Or.inl rfl⟩
        · exact ⟨he, Or.inr (Or.inr ⟨_, hmx, not_lt.1 hlt⟩)⟩)
      rw [List.append_nil] at this
      exact ⟨this, fun x hx => List.mem_append_left _ hx⟩
  · next hne =>
    have hrle := hle hne
    split
    · split
      · have := put_inv h hb hn ho ([reflected t.simplex] ++ [outside t.simplex]) [] (by simp) (by
          intro x hx
          simp only [List.cons_append, List.nil_append, List.mem_cons, List.not_mem_nil, or_false] at hx
          rcases hx with rfl | rfl
          · exact ⟨hr, Or.inr (Or.inr hrle)⟩
          · exact ⟨ho, Or.inl rfl⟩)
        rw [List.append_nil] at this
        exact ⟨this, fun x hx => List.mem_append_left _ hx⟩
      · next hlt =>
        have hcon : ∀ v ∈ t.simplex, ∃ u ∈ contract t.simplex, v.fit ≤ eval u.pt := by
          intro v hv
          refine ⟨_, List.mem_map_of_mem hmx, ?_⟩
          dsimp only
          rw [merge_self (h.grid _ hmx), ← h.fit _ hmx]
          exact hmax v hv
        refine ⟨evalAll_new (t := t) (by simp [contract, h.len]) ?_ ?_ h.dom h.best hcon (by obtain ⟨v, hv, hs⟩ := h.start; obtain ⟨u, hu, hvu⟩ := hcon v hv; exact ⟨u, hu, le_trans hs hvu⟩) _ ?_ _ _, fun x hx => List.mem_append_left _ (List.mem_append_left _ hx)⟩
        · intro v hv
          obtain ⟨u, hu, rfl⟩ := List.mem_map.1 hv
          rfl
        · intro v hv
          obtain ⟨u, hu, rfl⟩ := List.mem_map.1 hv
          exact setAll_grid (h.grid _ hmx) _
        · intro x hx
          rcases List.mem_append.1 hx with hx | hx
          · exact Or.inl hx
          · simp only [List.cons_append, List.nil_append, List.mem_cons, List.not_mem_nil, or_false] at hx
            rcases hx with rfl | rfl
            · exact Or.inr ⟨hr, hrle⟩
            · obtain ⟨v, hv, hvr⟩ := hrle
              exact Or.inr ⟨ho, v, hv, le_trans (not_le.1 hlt).le hvr⟩
    · split
      · split
        · have := put_inv h hb hn hi ([reflected t.simplex] ++ [inside t.simplex]) [] (by simp) (by
            intro x hx
            simp only [List.cons_append, List.nil_append, List.mem_cons, List.not_mem_nil, or_false] at hx
            rcases hx with rfl | rfl
            · exact ⟨hr, Or.inr (Or.inr hrle)⟩
            · exact ⟨hi, Or.inl rfl⟩)
          rw [List.append_nil] at this
          exact ⟨this, fun x hx => List.mem_append_left _ hx⟩
        · next hlt =>
          refine ⟨keep_inv h _ ?_, fun x hx => List.mem_append_left _ hx⟩
          intro x hx
          simp only [List.cons_append, List.nil_append, List.mem_cons, List.not_mem_nil, or_false] at hx
          rcases hx with rfl | rfl
          · exact ⟨hr, hrle⟩
          · exact ⟨hi, _, hw, (not_le.1 hlt).le⟩
      · split
        · have := put_inv h hb hn hc ([reflected t.simplex] ++ [centre t.simplex]) [] (by simp) (by
            intro x hx
            simp only [List.cons_append, List.nil_append, List.mem_cons, List.not_mem_nil, or_false] at hx
            rcases hx with rfl | rfl
            · exact ⟨hr, Or.inr (Or.inr hrle)⟩
            · exact ⟨hc, Or.inl rfl⟩)
          rw [List.append_nil] at this
          exact ⟨this, fun x hx => List.mem_append_left _ hx⟩
        · next hlt =>
          refine ⟨keep_inv h _ ?_, fun x hx => List.mem_append_left _ hx⟩
          intro x hx
          simp only [List.cons_append, List.nil_append, List.mem_cons, List.not_mem_nil, or_false] at hx
          rcases hx with rfl | rfl
          · exact ⟨hr, hrle⟩
          · exact ⟨hc, _, hw, not_lt.1 hlt⟩

theorem init_new {x : List Param} (hx : Grid ps x) (m : ℚ) (st : List ℚ) :
    (initSimplex x m st).length = ps.length + 1 ∧ (∀ v ∈ initSimplex x m st, v.fit = -1) ∧ (∀ v ∈ initSimplex x m st, Grid ps v.pt) ∧ (⟨x, -1⟩ : Vertex) ∈ initSimplex x m st := by
  refine ⟨by simp [initSimplex, hx.1], ?_, ?_, by simp [initSimplex]⟩
  · intro v hv
    rcases List.mem_cons.1 hv with rfl | hv
    · rfl
    · obtain ⟨i, -, rfl⟩ := List.mem_map.1 hv
      rfl
  · intro v hv
    rcases List.mem_cons.1 hv with rfl | hv
    · exact hx
    · obtain ⟨i, -, rfl⟩ := List.mem_map.1 hv
      exact shift_grid hx i _

theorem start_inv (h : Grid ps ps) (m : ℚ) (st : List ℚ) : XInv eval ps (evalAll eval ⟨initSimplex ps m st, m, [], [], false⟩) ∧ ps ∈ (evalAll eval ⟨initSimplex ps m st, m, [], [], false⟩).seen := by
  obtain ⟨i1, i2, i3, i4⟩ := init_new h m st
  refine ⟨evalAll_new (t := ⟨[], m, [], [], false⟩) i1 i2 i3 (by simp) (by simp) (by simp) ⟨_, i4, le_refl _⟩ [] (by simp) m false, ?_⟩
  refine List.mem_append_right _ (List.mem_map.2 ⟨⟨ps, -1⟩, List.mem_filter.2 ⟨i4, ?_⟩, rfl⟩)
  simp

theorem restart_inv (h : XInv eval ps t) (hb : Bounded eval) (m : ℚ) (st : List ℚ) : XInv eval ps (restart eval st { t with mult := m }) ∧ ∀ x ∈ t.seen, x ∈ (restart eval st { t with mult := m }).seen := by
  obtain ⟨hmx, hmax⟩ := maxIdx_ge h.ne (h.min hb)
  obtain ⟨i1, i2, i3, i4⟩ := init_new (h.grid _ hmx) m st
  have hcon : ∀ v ∈ t.simplex, ∃ u ∈ initSimplex (vtx t.simplex (maxIdx t.simplex)).pt m st, v.fit ≤ eval u.pt := by
    intro v hv
    refine ⟨_, i4, ?_⟩
    dsimp only
    rw [← h.fit _ hmx]
    exact hmax v hv
  exact ⟨evalAll_new (t := t) i1 i2 i3 h.dom h.best hcon (by obtain ⟨v, hv, hs⟩ := h.start; obtain ⟨u, hu, hvu⟩ := hcon v hv; exact ⟨u, hu, le_trans hs hvu⟩) t.seen (fun x hx => Or.inl hx) m t.done,
    fun x hx => List.mem_append_left _ hx⟩

theorem xiter_inv (h : XInv eval ps t) (hb : Bounded eval) (hn : 1 ≤ ps.length) (eps : ℚ) (st : List ℚ) :
    XInv eval ps (xIter eval eps st t) ∧ ∀ x ∈ t.seen, x ∈ (xIter eval eps st t).seen := by
  obtain ⟨h1, h2⟩ := move_inv h hb hn
  unfold xIter
  dsimp only
  split
  · split
    · obtain ⟨r1, r2⟩ := restart_inv h1 hb (xMove eval t).mult st
      split
      · exact ⟨⟨r1.len, r1.grid, r1.fit, r1.seen, r1.dom, r1.best, r1.start⟩, fun x hx => r2 x (h2 x hx)⟩
      · exact ⟨⟨r1.len, r1.grid, r1.fit, r1.seen, r1.dom, r1.best, r1.start⟩, fun x hx => r2 x (h2 x hx)⟩
    · exact ⟨h1, h2⟩
  · split
    · split
      · obtain ⟨r1, r2⟩ := restart_inv h1 hb ((xMove eval t).mult * (1 / 2)) st
        exact ⟨r1, fun x hx => r2 x (h2 x hx)⟩
      · exact ⟨⟨h1.len, h1.grid, h1.fit, h1.seen, h1.dom, h1.best, h1.start⟩, h2⟩
    · exact ⟨h1, h2⟩

theorem xloop_inv (hb : Bounded eval) (hn : 1 ≤ ps.length) (eps : ℚ) (st : List ℚ) (k : Nat) : ∀ t, XInv eval ps t → XInv eval ps (xLoop eval eps st k t) ∧ ∀ x ∈ t.seen, x ∈ (xLoop eval eps st k t).seen := by
  induction k with
  | zero => exact fun t h => ⟨h, fun x hx => hx⟩
  | succ k ih =>
    intro t h
    obtain ⟨h1, h2⟩ := xiter_inv h hb hn eps st
    unfold xLoop
    dsimp only
    split
    · exact ⟨h1, h2⟩
    · obtain ⟨h3, h4⟩ := ih _ h1
      exact ⟨h3, fun x hx => h4 x (h2 x hx)⟩

/-! ## The number of evaluations -/

theorem evalAll_len (t : XSt) : (evalAll eval t).seen.length ≤ t.seen.length + t.simplex.length := by
  unfold evalAll
  simp only [List.length_append, List.length_map]
  exact Nat.add_le_add_left (List.length_filter_le _ _) _

theorem move_len (h : XInv eval ps t) : (xMove eval t).seen.length ≤ t.seen.length + 2 + (ps.length + 1) := by
  have hl := h.len
  unfold xMove
  dsimp only
  simp only [List.append_assoc, put]
  split
  · split <;> simp
  · split
    · split
      · simp
      · refine le_trans (evalAll_len _) ?_
        simp [contract, hl]
    · split
      · split <;> simp
      · split <;> simp

theorem restart_len (h : XInv eval ps t) (hb : Bounded eval) (m : ℚ) (st : List ℚ) : (restart eval st { t with mult := m }).seen.length ≤ t.seen.length + (ps.length + 1) := by
  obtain ⟨hmx, -⟩ := maxIdx_ge h.ne (h.min hb)
  unfold restart
  refine le_trans (evalAll_len _) ?_
  dsimp only
  rw [(init_new (h.grid _ hmx) m st).1]

theorem xiter_len (h : XInv eval ps t) (hb : Bounded eval) (hn : 1 ≤ ps.length) (eps : ℚ) (st : List ℚ) : (xIter eval eps st t).seen.length ≤ t.seen.length + (2 * ps.length + 4) := by
  have h1 := (move_inv h hb hn).1
  have h2 := move_len h
  unfold xIter
  dsimp only
  split
  · split
    · have := restart_len h1 hb (xMove eval t).mult st
      have e : restart eval st { xMove eval t with mult := (xMove eval t).mult } = restart eval st (xMove eval t) := rfl
      rw [e] at this
      split <;> dsimp only <;> omega
    · omega
  · split
    · split
      · have := restart_len h1 hb ((xMove eval t).mult * (1 / 2)) st
        omega
      · dsimp only; omega
    · omega

theorem xloop_len (hb : Bounded eval) (hn : 1 ≤ ps.length) (eps : ℚ) (st : List ℚ) (k : Nat) : ∀ t, XInv eval ps t → (xLoop eval eps st k t).seen.length ≤ t.seen.length + k * (2 * ps.length + 4) := by
  induction k with
  | zero => intro t _; simp [xLoop]
  | succ k ih =>
    intro t h
    have h1 := (xiter_inv h hb hn eps st).1
    have h2 := xiter_len h hb hn eps st
    have h3 := ih _ h1
    rw [Nat.succ_mul]
    unfold xLoop
    dsimp only
    split <;> omega

end

end LGD.Tune
