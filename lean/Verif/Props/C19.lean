import Verif.Ieee.RoundLemmas
import Verif.Part.BisectModel
import Verif.Part.Curve
import Verif.Props.C42

/-!
# C19 – `RecursiveBisectionPartition`
-/

namespace LGD.C19
open LGD.C12 LGD.C04

/-- What is assumed about the floating point rounding: for a ratio between 0 and 1 the result is between 0 and the extent, for all extents
up to `D`. -/
def Rounds (D : Int) (rnd : Nat → Nat → Int → Int) : Prop :=
  ∀ a b d, 0 < b → a ≤ b → 0 ≤ d → d ≤ D → 0 ≤ rnd a b d ∧ rnd a b d ≤ d

/-- Exact rounding to the nearest integer satisfies the assumption. -/
theorem exactRound_rounds (D : Int) : Rounds D exactRound := by
  intro a b d hb hab hd _
  have h1 : (0 : Int) ≤ 2 * a * d + b := by
    have : (0 : Int) ≤ 2 * a * d := Int.mul_nonneg (by omega) hd
    omega
  refine ⟨Int.ediv_nonneg h1 (by omega), ?_⟩
  unfold exactRound
  have h2 : 2 * (a : Int) * d ≤ 2 * b * d := Int.mul_le_mul_of_nonneg_right (by omega) hd
  have h3 : 2 * (b : Int) * (d + 1) = 2 * b * d + 2 * b := by rw [Int.mul_add, Int.mul_one]
  have h4 : (2 * (a : Int) * d + b) / (2 * b) < d + 1 := by
    apply Int.ediv_lt_of_lt_mul (by omega)
    rw [Int.mul_comm (d + 1), h3]; omega
  omega

/-- Spec: a family of boxes `cub 0 .. cub (m-1)` tiles the box `b`. -/
structure Tiles (n : Nat) (b : Box) (m : Nat) (cub : Nat → Option Box) : Prop where
  total : ∀ i, i < m → ∃ x, cub i = some x ∧ ∀ k, k ≤ n → 0 ≤ x.dims k
  inside : ∀ i x c, i < m → cub i = some x → InBox n x c → InBox n b c
  disjoint : ∀ i j x y c, i < m → j < m → i ≠ j → cub i = some x → cub j = some y → InBox n x c → ¬ InBox n y c
  cover : ∀ c, InBox n b c → ∃ i x, i < m ∧ cub i = some x ∧ InBox n x c

/-- Spec: a family of regions decomposes the box `b`. -/
structure Decomposes (n : Nat) (b : Box) (m : Nat) (reg : Nat → Option Idx) : Prop where
  total : ∀ i, i < m → ∃ r, reg i = some r ∧ RegOK n r
  inside : ∀ i r c, i < m → reg i = some r → RMem n r c → InBox n b c
  disjoint : ∀ i j r s c, i < m → j < m → i ≠ j → reg i = some r → reg j = some s → RMem n r c → ¬ RMem n s c
  cover : ∀ c, InBox n b c → ∃ i r, i < m ∧ reg i = some r ∧ RMem n r c

theorem longest_le (n : Nat) (dw d : Crd) : rbLongest n dw d ≤ n := by
  unfold rbLongest
  have : ∀ (l : List Nat) (a : Nat), a ≤ n → (∀ i ∈ l, i < n) →
      l.foldl (fun l i => if d l * dw l < d (i + 1) * dw (i + 1) then i + 1 else l) a ≤ n := by
    intro l
    induction l with
    | nil => intro a ha _; exact ha
    | cons x xs ih =>
      intro a ha h
      rw [List.foldl_cons]
      apply ih
      · have := h x (by simp)
        split <;> omega
      · exact fun i hi => h i (by simp [hi])
  exact this _ 0 (by omega) (fun i hi => List.mem_range.1 hi)

theorem split_spec {D : Int} {rnd : Nat → Nat → Int → Int} (hr : Rounds D rnd) (n : Nat) (dw : Crd) (box : Box) (hb : ∀ k, k ≤ n → 0 ≤ box.dims k ∧ box.dims k ≤ D)
    (num den : Nat) (hd : 0 < den) (hnd : num ≤ den) :
    let p := rbSplit rnd n dw box num den
    (∀ k, k ≤ n → 0 ≤ p.1.dims k ∧ p.1.dims k ≤ D) ∧ (∀ k, k ≤ n → 0 ≤ p.2.dims k ∧ p.2.dims k ≤ D) ∧
      (∀ c, InBox n box c ↔ InBox n p.1 c ∨ InBox n p.2 c) ∧ (∀ c, InBox n p.1 c → ¬ InBox n p.2 c) := by
  have hl := longest_le n dw box.dims
  have ho := hr num den (box.dims (rbLongest n dw box.dims)) hd hnd (hb _ hl).1 (hb _ hl).2
  unfold rbSplit
  simp only
  generalize rbLongest n dw box.dims = l at hl ho ⊢
  generalize rnd num den (box.dims l) = o at ho ⊢
  have hbl := hb l hl
  refine ⟨?_, ?_, ?_, ?_⟩
  · intro k hk; simp only [upd]; split
    · omega
    · exact hb k hk
  · intro k hk; simp only [upd]; split
    · omega
    · exact hb k hk
  · intro c
    unfold InBox
    simp only [upd]
    constructor
    · intro h
      have h1 := h l hl
      by_cases hc : c l < box.origin l + o
      · refine Or.inl (fun k hk => ?_)
        have := h k hk
        split
        · subst_vars; omega
        · omega
      · refine Or.inr (fun k hk => ?_)
        have := h k hk
        split
        · subst_vars; omega
        · omega
    · rintro (h | h)
      · intro k hk
        have := h k hk
        split at this
        · subst_vars; omega
        · omega
      · intro k hk
        have := h k hk
        split at this
        · subst_vars; omega
        · omega
  · intro c h1 h2
    have h1 := h1 l hl
    have h2 := h2 l hl
    simp only [upd, if_true] at h1 h2
    omega

/-- strictly increasing offsets -/
def Incr (o : List Nat) : Prop := ∀ (i j x y : Nat), i < j → o[i]? = some x → o[j]? = some y → x < y

theorem offsets_incr (ws : List Nat) (h : ∀ w ∈ ws, 0 < w) : Incr (startOffsets 0 ws) := by
  intro i j x y hij hx hy
  have hl : (startOffsets 0 ws).length = ws.length + 1 := by
    generalize 0 = o
    clear h hx hy
    induction ws generalizing o with
    | nil => rfl
    | cons w ws ih => simp [startOffsets, ih]
  have hj := (List.getElem?_eq_some_iff.1 hy).1
  rw [startOffsets_get 0 ws i (by omega)] at hx
  rw [startOffsets_get 0 ws j (by omega)] at hy
  cases hx; cases hy
  have h1 : (ws.take (i + 1)).sum ≤ (ws.take j).sum := sum_take_mono ws hij
  have hi : i < ws.length := by omega
  have h2 := sum_take_succ ws i ws[i] (List.getElem?_eq_getElem hi)
  have := h ws[i] (List.getElem_mem hi)
  omega

theorem takeWhile_lb (l : List Nat) (x : Nat) : (∀ i y, i < (l.takeWhile (fun a => decide (a < x))).length → l[i]? = some y → y < x) ∧
    (∀ y, l[(l.takeWhile (fun a => decide (a < x))).length]? = some y → x ≤ y) := by
  induction l with
  | nil => simp
  | cons a l ih =>
    rw [List.takeWhile_cons]
    by_cases h : a < x
    · simp only [h, decide_true, if_true, List.length_cons]
      refine ⟨?_, ?_⟩
      · intro i y hi hy
        cases i with
        | zero => simp at hy; omega
        | succ i => exact ih.1 i y (by omega) (by simpa using hy)
      · intro y hy
        exact ih.2 y (by simpa using hy)
    · simp only [h, decide_false]
      simp
      omega

/-- With strictly increasing offsets, the middle lies strictly between both ends. -/
theorem middle_spec (o : List Nat) (ho : Incr o) (b e : Nat) (hbe : b + 2 ≤ e) (he : e < o.length) :
    ∃ m, rbMiddle o b e = some m ∧ b < m ∧ m < e := by
  have hb : b < o.length := by omega
  unfold rbMiddle
  rw [List.getElem?_eq_getElem hb, List.getElem?_eq_getElem he]
  simp only [Option.bind_eq_bind, Option.bind_some]
  generalize hh : (o[b] + o[e]) / 2 = half
  have hlen : ((o.take e).drop b).length = e - b := by simp; omega
  have hget : ∀ i, i < e - b → ((o.take e).drop b)[i]? = o[b + i]? := by
    intro i hi
    rw [List.getElem?_drop, List.getElem?_take_of_lt (by omega)]
  obtain ⟨t1, t2⟩ := takeWhile_lb ((o.take e).drop b) half
  have htl : (((o.take e).drop b).takeWhile (fun x => decide (x < half))).length ≤ e - b := by
    rw [← hlen]; exact (List.takeWhile_sublist _).length_le
  generalize (((o.take e).drop b).takeWhile (fun x => decide (x < half))).length = t at *
  have hinc1 : o[b] < o[b + 1] := ho b (b + 1) _ _ (by omega) (List.getElem?_eq_getElem hb) (List.getElem?_eq_getElem (by omega))
  have hinc2 : o[b + 1] < o[e] := ho (b + 1) e _ _ (by omega) (List.getElem?_eq_getElem _) (List.getElem?_eq_getElem he)
  have hinc3 : o[e - 1] < o[e] := ho (e - 1) e _ _ (by omega) (List.getElem?_eq_getElem _) (List.getElem?_eq_getElem he)
  have ht0 : 0 < t := by
    rcases Nat.eq_zero_or_pos t with h | h
    · subst h
      have := t2 o[b] (by rw [hget 0 (by omega)]; exact List.getElem?_eq_getElem hb)
      omega
    · exact h
  have hmt : b + t < o.length := by omega
  rw [List.getElem?_eq_getElem hmt]
  simp only [Option.bind_some]
  by_cases hte : t = e - b
  · -- no offset before the end reaches the half
    have hbt : b + t = e := by omega
    have hlast : o[e - 1] < half := t1 (e - b - 1) _ (by omega) (by
      rw [hget _ (by omega), show b + (e - b - 1) = e - 1 by omega]; exact List.getElem?_eq_getElem (by omega))
    have h1 : o[b + 1] ≤ o[e - 1] := by
      rcases Nat.lt_or_ge (b + 1) (e - 1) with h | h
      · exact Nat.le_of_lt (ho _ _ _ _ h (List.getElem?_eq_getElem _) (List.getElem?_eq_getElem (by omega)))
      · have : b + 1 = e - 1 := by omega
        simp only [this]; omega
    simp only [hbt]
    rw [if_neg (by omega), if_neg (by omega), List.getElem?_eq_getElem (by omega)]
    simp only [Option.bind_some]
    rw [if_pos (by omega)]
    exact ⟨_, rfl, by omega, by omega⟩
  · have hm : b + t < e := by omega
    have hge : half ≤ o[b + t] := t2 _ (by rw [hget t (by omega)]; exact List.getElem?_eq_getElem hmt)
    by_cases heq : o[b + t] = half
    · rw [if_pos heq]; exact ⟨_, rfl, by omega, hm⟩
    · rw [if_neg heq, if_neg (by omega), List.getElem?_eq_getElem (show b + t - 1 < o.length by omega)]
      simp only [Option.bind_some]
      by_cases ht1 : t = 1
      · subst ht1
        have hlt : o[b + 1] < o[e] := hinc2
        have : ¬ (half - o[b + 1 - 1] < o[b + 1] - half) := by
          simp only [Nat.add_sub_cancel]; omega
        rw [if_neg this]
        exact ⟨_, rfl, by omega, hm⟩
      · split
        · exact ⟨_, rfl, by omega, by omega⟩
        · exact ⟨_, rfl, by omega, hm⟩

theorem search_tiles {D : Int} {rnd : Nat → Nat → Int → Int} (hr : Rounds D rnd) (n : Nat) (dw : Crd) (o : List Nat) (ho : Incr o) (len : Nat) :
    ∀ (b e fuel : Nat) (box : Box), e = b + len → 0 < len → e < o.length → len < fuel → (∀ k, k ≤ n → 0 ≤ box.dims k ∧ box.dims k ≤ D) →
      (∀ i, b ≤ i → i < e → ∃ x, rbSearch rnd n dw o fuel b e i box = some x ∧ (∀ k, k ≤ n → 0 ≤ x.dims k) ∧ ∀ c, InBox n x c → InBox n box c) ∧
      (∀ i j x y c, b ≤ i → i < e → b ≤ j → j < e → i ≠ j → rbSearch rnd n dw o fuel b e i box = some x →
        rbSearch rnd n dw o fuel b e j box = some y → InBox n x c → ¬ InBox n y c) ∧
      (∀ c, InBox n box c → ∃ i x, b ≤ i ∧ i < e ∧ rbSearch rnd n dw o fuel b e i box = some x ∧ InBox n x c) := by
  induction len using Nat.strongRecOn with
  | _ len ih =>
    intro b e fuel box he hlen hel hf hbox
    obtain ⟨f, rfl⟩ : ∃ f, fuel = f + 1 := ⟨fuel - 1, by omega⟩
    by_cases h1 : len = 1
    · subst h1
      have hs : ∀ i, rbSearch rnd n dw o (f + 1) b e i box = some box := by intro i; rw [rbSearch, if_pos he]
      refine ⟨fun i _ _ => ⟨box, hs i, fun k hk => (hbox k hk).1, fun c h => h⟩, ?_, ?_⟩
      · intro i j x y c h1 h2 h3 h4 h5; omega
      · intro c hc; exact ⟨b, box, by omega, by omega, hs b, hc⟩
    · obtain ⟨m, hm, hm1, hm2⟩ := middle_spec o ho b e (by omega) hel
      have hb' : b < o.length := by omega
      have hm' : m < o.length := by omega
      have hbm : o[b] < o[m] := ho b m _ _ hm1 (List.getElem?_eq_getElem hb') (List.getElem?_eq_getElem hm')
      have hme : o[m] < o[e] := ho m e _ _ hm2 (List.getElem?_eq_getElem hm') (List.getElem?_eq_getElem hel)
      have hsp := split_spec hr n dw box hbox (o[m] - o[b]) (o[e] - o[b]) (by omega) (by omega)
      simp only at hsp
      have hstep : ∀ i, i < e → rbSearch rnd n dw o (f + 1) b e i box =
          if i < m then rbSearch rnd n dw o f b m i (rbSplit rnd n dw box (o[m] - o[b]) (o[e] - o[b])).1
          else rbSearch rnd n dw o f m e i (rbSplit rnd n dw box (o[m] - o[b]) (o[e] - o[b])).2 := by
        intro i hi
        have hi' : i < o.length := by omega
        rw [rbSearch, if_neg (by omega), hm]
        simp only [Option.bind_eq_bind, Option.bind_some, List.getElem?_eq_getElem hb', List.getElem?_eq_getElem hel,
          List.getElem?_eq_getElem hm', List.getElem?_eq_getElem hi']
        have : (o[i] < o[m]) ↔ i < m := by
          constructor
          · intro h
            rcases Nat.lt_trichotomy i m with h2 | h2 | h2
            · exact h2
            · subst h2; omega
            · have := ho m i _ _ h2 (List.getElem?_eq_getElem hm') (List.getElem?_eq_getElem hi'); omega
          · intro h; exact ho i m _ _ h (List.getElem?_eq_getElem hi') (List.getElem?_eq_getElem hm')
        simp only [this]
      generalize rbSplit rnd n dw box (o[m] - o[b]) (o[e] - o[b]) = p at *
      obtain ⟨s1, s2, s3, s4⟩ := hsp
      obtain ⟨l1, l2, l3⟩ := ih (m - b) (by omega) b m f p.1 (by omega) (by omega) hm' (by omega) s1
      obtain ⟨r1, r2, r3⟩ := ih (e - m) (by omega) m e f p.2 (by omega) (by omega) hel (by omega) s2
      refine ⟨?_, ?_, ?_⟩
      · intro i hi1 hi2
        rw [hstep i hi2]
        by_cases h : i < m
        · rw [if_pos h]
          obtain ⟨x, x1, x2, x3⟩ := l1 i hi1 h
          exact ⟨x, x1, x2, fun c hc => (s3 c).2 (Or.inl (x3 c hc))⟩
        · rw [if_neg h]
          obtain ⟨x, x1, x2, x3⟩ := r1 i (by omega) hi2
          exact ⟨x, x1, x2, fun c hc => (s3 c).2 (Or.inr (x3 c hc))⟩
      · intro i j x y c hi1 hi2 hj1 hj2 hij hx hy hxc hyc
        rw [hstep i hi2] at hx
        rw [hstep j hj2] at hy
        by_cases h : i < m
        · rw [if_pos h] at hx
          obtain ⟨x', x1, _, x3⟩ := l1 i hi1 h
          rw [hx] at x1; cases x1
          by_cases h' : j < m
          · rw [if_pos h'] at hy
            exact l2 i j x y c hi1 h hj1 h' hij hx hy hxc hyc
          · rw [if_neg h'] at hy
            obtain ⟨y', y1, _, y3⟩ := r1 j (by omega) hj2
            rw [hy] at y1; cases y1
            exact s4 c (x3 c hxc) (y3 c hyc)
        · rw [if_neg h] at hx
          obtain ⟨x', x1, _, x3⟩ := r1 i (by omega) hi2
          rw [hx] at x1; cases x1
          by_cases h' : j < m
          · rw [if_pos h'] at hy
            obtain ⟨y', y1, _, y3⟩ := l1 j hj1 h'
            rw [hy] at y1; cases y1
            exact s4 c (y3 c hyc) (x3 c hxc)
          · rw [if_neg h'] at hy
            exact r2 i j x y c (by omega) hi2 (by omega) hj2 hij hx hy hxc hyc
      · intro c hc
        rcases (s3 c).1 hc with h | h
        · obtain ⟨i, x, i1, i2, i3, i4⟩ := l3 c h
          exact ⟨i, x, i1, by omega, by rw [hstep i (by omega), if_pos i2]; exact i3, i4⟩
        · obtain ⟨i, x, i1, i2, i3, i4⟩ := r3 c h
          exact ⟨i, x, by omega, i2, by rw [hstep i (by omega), if_neg (by omega)]; exact i3, i4⟩

theorem startOffsets_length (o : Nat) (ws : List Nat) : (startOffsets o ws).length = ws.length + 1 := by
  induction ws generalizing o with
  | nil => rfl
  | cons w ws ih => simp [startOffsets, ih]

/-- **C19** (boxes). All dimensions, every non-empty grid, every axis weighting, every non-empty vector of positive weights: the
search terminates and the cuboids of the nodes tile the grid. Missing for the full claim: weights 0 (see `zero_weight_*`). -/
theorem cuboids_partial {D : Int} {rnd : Nat → Nat → Int → Int} (hr : Rounds D rnd) (n : Nat) (dw : Crd) (grid : Box)
    (hg : ∀ k, k ≤ n → 0 ≤ grid.dims k ∧ grid.dims k ≤ D)
    (hv : crdProd n grid.dims ≠ 0) (ws : List Nat) (hne : ws ≠ []) (hw : ∀ w ∈ ws, 0 < w) (fuel : Nat) (hf : ws.length < fuel) :
    Tiles n grid ws.length (rbCuboid rnd n dw grid ws fuel) := by
  have hl : 0 < ws.length := List.length_pos_iff.2 hne
  obtain ⟨h1, h2, h3⟩ := search_tiles hr n dw (startOffsets 0 ws) (offsets_incr ws hw) ws.length 0 ws.length fuel grid (by omega) hl
    (by rw [startOffsets_length]; omega) hf hg
  have hc : ∀ i, rbCuboid rnd n dw grid ws fuel i = rbSearch rnd n dw (startOffsets 0 ws) fuel 0 ws.length i grid := by
    intro i; unfold rbCuboid; rw [if_neg hv]
  refine ⟨?_, ?_, ?_, ?_⟩
  · intro i hi
    obtain ⟨x, x1, x2, _⟩ := h1 i (by omega) hi
    exact ⟨x, by rw [hc]; exact x1, x2⟩
  · intro i x c hi hx hxc
    obtain ⟨x', x1, _, x3⟩ := h1 i (by omega) hi
    rw [hc, x1] at hx; cases hx
    exact x3 c hxc
  · intro i j x y c hi hj hij hx hy
    rw [hc] at hx hy
    exact h2 i j x y c (by omega) hi (by omega) hj hij hx hy
  · intro c hcc
    obtain ⟨i, x, _, i2, i3, i4⟩ := h3 c hcc
    exact ⟨i, x, i2, by rw [hc]; exact i3, i4⟩

/-- A tiling by boxes yields a decomposition into regions, as long as inserting each box terminates. -/
theorem tiles_regions (n : Nat) (grid : Box) (m : Nat) (cub : Nat → Option Box) (h : Tiles n grid m cub) (fuel : Nat)
    (hin : ∀ i x, i < m → cub i = some x → ∀ k, 1 ≤ k → k < n → 0 < x.dims k)
    (hf : ∀ i x, i < m → cub i = some x → (Volume n (rows n x)).toNat < fuel) :
    Decomposes n grid m (fun i => (cub i).bind (fun box => regInsertBox n emptyIdx box fuel)) := by
  have key : ∀ i, i < m → ∃ x r, cub i = some x ∧ regInsertBox n emptyIdx x fuel = some r ∧ RegOK n r ∧ ∀ c, RMem n r c ↔ InBox n x c := by
    intro i hi
    obtain ⟨x, x1, x2⟩ := h.total i hi
    obtain ⟨⟨r, r1, r2, r3⟩, _⟩ := C42.box_insert_remove_partial n emptyIdx (regOK_empty n) x (x2 0 (by omega)) (hin i x hi x1)
      (x2 n (Nat.le_refl _)) fuel (hf i x hi x1)
    refine ⟨x, r, x1, r1, r2, fun c => ?_⟩
    rw [r3]
    exact ⟨fun h => h.elim (fun h => (regEmpty_mem n c h).elim) id, Or.inr⟩
  refine ⟨?_, ?_, ?_, ?_⟩
  · intro i hi
    obtain ⟨x, r, k1, k2, k3, _⟩ := key i hi
    exact ⟨r, by simp only [k1, Option.bind_some, k2], k3⟩
  · intro i r c hi hr hc
    obtain ⟨x, r', k1, k2, _, k4⟩ := key i hi
    simp only [k1, Option.bind_some, k2, Option.some.injEq] at hr; subst hr
    exact h.inside i x c hi k1 ((k4 c).1 hc)
  · intro i j r s c hi hj hij hr hs hc hc'
    obtain ⟨x, r', k1, k2, _, k4⟩ := key i hi
    obtain ⟨y, s', l1, l2, _, l4⟩ := key j hj
    simp only [k1, Option.bind_some, k2, Option.some.injEq] at hr; subst hr
    simp only [l1, Option.bind_some, l2, Option.some.injEq] at hs; subst hs
    exact h.disjoint i j x y c hi hj hij k1 l1 ((k4 c).1 hc) ((l4 c).1 hc')
  · intro c hc
    obtain ⟨i, x, i1, i2, i3⟩ := h.cover c hc
    obtain ⟨x', r, k1, k2, _, k4⟩ := key i i1
    rw [i2] at k1; cases k1
    exact ⟨i, r, i1, by simp only [i2, Option.bind_some, k2], (k4 c).2 i3⟩

/-- **C19** (regions). For positive weights the regions of the nodes are pairwise disjoint and cover the grid. In 3D, no node may get a
cuboid without y-extent (see `flat_cuboid_hangs`). -/
theorem regions_partial {D : Int} {rnd : Nat → Nat → Int → Int} (hr : Rounds D rnd) (n : Nat) (dw : Crd) (grid : Box)
    (hg : ∀ k, k ≤ n → 0 ≤ grid.dims k ∧ grid.dims k ≤ D)
    (hv : crdProd n grid.dims ≠ 0) (ws : List Nat) (hne : ws ≠ []) (hw : ∀ w ∈ ws, 0 < w) (fuel : Nat) (hf : ws.length < fuel)
    (hf2 : ∀ i x, i < ws.length → rbCuboid rnd n dw grid ws fuel i = some x → (Volume n (rows n x)).toNat < fuel)
    (hin : ∀ i x, i < ws.length → rbCuboid rnd n dw grid ws fuel i = some x → ∀ k, 1 ≤ k → k < n → 0 < x.dims k) :
    Decomposes n grid ws.length (rbRegion rnd n dw grid ws fuel) :=
  tiles_regions n grid ws.length _ (cuboids_partial hr n dw grid hg hv ws hne hw fuel hf) fuel hin hf2

/-- With `double`s the result stays within the extent, for all extents which fit an `int` and for all weights. -/
theorem doubleRound_rounds : Rounds (2 ^ 31 - 1) doubleRound := by
  intro a b d hb hab hd hD
  have hdd : Ieee.Double (d : ℚ) := Ieee.double_int (by rw [abs_of_nonneg hd]; omega)
  have h1 : Ieee.Double 1 := by simpa using Ieee.double_int (k := 1) (by norm_num)
  have ha : (0 : ℚ) ≤ Ieee.rnd a := Ieee.rnd_nonneg (Nat.cast_nonneg _)
  have hab' : Ieee.rnd (1 * Ieee.rnd a) ≤ Ieee.rnd b := by
    rw [one_mul, Ieee.rnd_double (Ieee.double_rnd _)]
    exact Ieee.rnd_mono (by exact_mod_cast hab)
  have hb' : (1 : ℚ) ≤ Ieee.rnd b := Ieee.le_rnd_of_le h1 (by exact_mod_cast hb)
  have hr0 : 0 ≤ Ieee.rnd (Ieee.rnd (1 * Ieee.rnd a) / Ieee.rnd b) :=
    Ieee.rnd_nonneg (div_nonneg (Ieee.rnd_nonneg (by linarith)) (by linarith))
  have hr1 : Ieee.rnd (Ieee.rnd (1 * Ieee.rnd a) / Ieee.rnd b) ≤ 1 :=
    Ieee.rnd_le_of_le h1 (by rw [div_le_iff₀ (by linarith)]; linarith)
  have hd' : (0 : ℚ) ≤ d := by exact_mod_cast hd
  have hx0 : 0 ≤ Ieee.rnd (Ieee.rnd (Ieee.rnd (1 * Ieee.rnd a) / Ieee.rnd b) * d) := Ieee.rnd_nonneg (mul_nonneg hr0 hd')
  have hx1 : Ieee.rnd (Ieee.rnd (Ieee.rnd (1 * Ieee.rnd a) / Ieee.rnd b) * d) ≤ d := by
    refine Ieee.rnd_le_of_le hdd ?_
    have := mul_le_mul_of_nonneg_right hr1 hd'
    linarith
  unfold doubleRound
  generalize Ieee.rnd (Ieee.rnd (Ieee.rnd (1 * Ieee.rnd a) / Ieee.rnd b) * d) = x at hx0 hx1
  constructor
  · exact Int.floor_nonneg.2 (by linarith)
  · have : ⌊x + 1 / 2⌋ < d + 1 := by
      rw [Int.floor_lt]; push_cast; linarith
    omega

/-- **C19** (boxes) with `double`s. -/
theorem cuboids_double_partial (n : Nat) (dw : Crd) (grid : Box) (hg : ∀ k, k ≤ n → 0 ≤ grid.dims k ∧ grid.dims k < 2 ^ 31)
    (hv : crdProd n grid.dims ≠ 0) (ws : List Nat) (hne : ws ≠ []) (hw : ∀ w ∈ ws, 0 < w) (fuel : Nat) (hf : ws.length < fuel) :
    Tiles n grid ws.length (rbCuboid doubleRound n dw grid ws fuel) :=
  cuboids_partial doubleRound_rounds n dw grid (fun k hk => ⟨(hg k hk).1, by have := (hg k hk).2; omega⟩) hv ws hne hw fuel hf

/-- `double`s and exact arithmetic differ: seven tenths of 45 -/
example : (doubleRound 7 10 45, exactRound 7 10 45) = (31, 32) := by decide +kernel

/-! counterexamples -/

/-- A node of weight 0 gets the same cells as its successor (10x1 grid, weights 5, 0, 5): the regions overlap. -/
theorem zero_weight_overlap : ∃ x y c, rbCuboid doubleRound 1 (fun _ => 1) (bx 0 0 0 10 1 0) [5, 0, 5] 10 1 = some x ∧
    rbCuboid doubleRound 1 (fun _ => 1) (bx 0 0 0 10 1 0) [5, 0, 5] 10 2 = some y ∧ InBox 1 x c ∧ InBox 1 y c := by
  have h : ∀ i : Nat, i = 1 ∨ i = 2 → (rbCuboid doubleRound 1 (fun _ => 1) (bx 0 0 0 10 1 0) [5, 0, 5] 10 i).any (fun b =>
      decide ((b.origin 0 ≤ 7 ∧ 7 < b.origin 0 + b.dims 0) ∧ b.origin 1 ≤ 0 ∧ 0 < b.origin 1 + b.dims 1)) = true := by
    rintro i (rfl | rfl) <;> decide +kernel
  have g : ∀ i : Nat, i = 1 ∨ i = 2 → ∃ x, rbCuboid doubleRound 1 (fun _ => 1) (bx 0 0 0 10 1 0) [5, 0, 5] 10 i = some x ∧
      InBox 1 x fun k => if k = 0 then 7 else 0 := by
    intro i hi
    obtain ⟨x, hx, hxc⟩ := (Option.any_eq_true _ _).1 (h i hi)
    have hxc := of_decide_eq_true hxc
    refine ⟨x, hx, fun k hk => ?_⟩
    obtain rfl | rfl : k = 0 ∨ k = 1 := by omega
    · exact hxc.1
    · exact hxc.2
  obtain ⟨x, hx, hxc⟩ := g 1 (Or.inl rfl)
  obtain ⟨y, hy, hyc⟩ := g 2 (Or.inr rfl)
  exact ⟨x, y, _, hx, hy, hxc, hyc⟩

/-- Weights 1, 0: the search never ends, for any rounding and any grid. -/
theorem zero_weight_hangs (rnd : Nat → Nat → Int → Int) (n : Nat) (dw : Crd) (grid : Box) (fuel : Nat) :
    rbCuboid rnd n dw grid [1, 0] fuel 0 = none := by
  unfold rbCuboid
  split
  · rfl
  · have : ∀ fuel box, rbSearch rnd n dw (startOffsets 0 [1, 0]) fuel 0 2 0 box = none := by
      intro fuel
      induction fuel with
      | zero => intro box; rfl
      | succ f ih =>
        intro box
        rw [rbSearch, if_neg (by omega), show rbMiddle (startOffsets 0 [1, 0]) 0 2 = some 0 by decide]
        simp only [startOffsets, Option.bind_eq_bind, Option.bind_some, List.getElem?_cons_zero, List.getElem?_cons_succ, Nat.lt_irrefl, if_false]
        exact ih _
    exact this _ _

/-- 3D: with positive weights a node may get a flat cuboid, on which the construction of the region never ends (2x4x2 grid, weights 1, 15,
y-axis weighted double). -/
theorem flat_cuboid_hangs (fuel : Nat) : rbRegion doubleRound 2 (fun k => if k = 1 then 2 else 1) (bx 0 0 0 2 4 2) [1, 15] fuel 0 = none := by
  unfold rbRegion
  rcases fuel with _ | _ | f
  · rfl
  · rfl
  · have h : ∃ x, rbCuboid doubleRound 2 (fun k => if k = 1 then 2 else 1) (bx 0 0 0 2 4 2) [1, 15] (f + 2) 0 = some x ∧ x.dims 1 = 0 ∧ x.dims 2 ≠ 0 := by
      have hr : doubleRound 1 16 4 = 0 := by decide +kernel
      refine ⟨_, rfl, ?_, ?_⟩
      · exact hr
      · decide
    obtain ⟨x, h1, h2, h3⟩ := h
    rw [h1, Option.bind_some, (C42.box_insert_hangs emptyIdx x h2 h3 _).1]

/-! non-vacuity: 10x6 grid, three nodes -/

example : crdProd 1 (bx 3 2 0 10 6 0).dims ≠ 0 ∧ (∀ w ∈ [10, 30, 20], 0 < w) := by decide
example : (List.range 3).map (fun i => (rbCuboid exactRound 1 (fun _ => 1) (bx 3 2 0 10 6 0) [10, 30, 20] 9 i).map
    (fun b => (b.origin 0, b.origin 1, b.dims 0, b.dims 1))) =
    [some (3, 2, 2, 6), some (5, 2, 5, 6), some (10, 2, 3, 6)] := by decide +kernel

end LGD.C19
