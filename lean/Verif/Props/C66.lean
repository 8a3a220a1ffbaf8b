import Verif.Image.PpmLemmas
import Verif.Image.PaletteLemmas

/-!
# C66: images show every cell as a tile in the color of its value
-/

namespace LGD.C66

open LGD.Image

/-! ## Files -/

/-- For all grids, tile sizes and colors the file of `PPMWriter` is a correct PPM file of the right size, and its pixel at `(x, y)` shows the cell at `(x / cw, y / ch)`. -/
theorem ppm_shows_grid {pre : List Nat} {period : Nat} {cw ch gw gh : Int} (hcw : 0 < cw) (hch : 0 < ch)
    (color : Int → Int → Color) {step : Nat} {ev : Event} {name file : List Nat}
    (h : ppmStep pre period cw ch gw gh color step ev = some (name, file)) :
    ∃ ps, readPPM file = some ((cw * gw).toNat, (ch * gh).toNat, ps) ∧ ps.length = (cw * gw).toNat * (ch * gh).toNat ∧
      ∀ x y : Nat, (x : Int) < cw * gw → (y : Int) < ch * gh →
        ps[y * (cw * gw).toNat + x]? =
          some (red (color (x / cw) (y / ch)), green (color (x / cw) (y / ch)), blue (color (x / cw) (y / ch))) := by
  unfold ppmStep at h
  split at h
  · exact absurd h (by simp)
  · simp only [Option.some.injEq, Prod.mk.injEq] at h
    obtain ⟨_, rfl⟩ := h
    obtain ⟨hw, hh, hp⟩ := plotViewport_spec hcw hch gw gh color 0 0 (cw * gw) (ch * gh) (Img.new (cw * gw) (ch * gh) noColor)
    have hw' : (plotGrid cw ch gw gh color (Img.new (cw * gw) (ch * gh) noColor)).w = cw * gw := hw
    have hh' : (plotGrid cw ch gw gh color (Img.new (cw * gw) (ch * gh) noColor)).h = ch * gh := hh
    refine ⟨_, by rw [readPPM_ppm, hw', hh'], by rw [rows_length, hw', hh'], ?_⟩
    intro x y hx hy
    have hx0 : (x : Int) < (cw * gw).toNat := by omega
    have hy0 : (y : Int) < (ch * gh).toNat := by omega
    have := rows_getElem? (plotGrid cw ch gw gh color (Img.new (cw * gw) (ch * gh) noColor)) (x := x) (y := y)
      (by rw [hw']; exact_mod_cast hx0) (by rw [hh']; exact_mod_cast hy0)
    rw [hw'] at this
    rw [this]
    have hpx : (plotGrid cw ch gw gh color (Img.new (cw * gw) (ch * gh) noColor)).px x y = color (x / cw) (y / ch) := by
      unfold plotGrid
      rw [hp x y ⟨by omega, hx, by omega, hy⟩, if_pos]
      · simp
      · simp only [Int.add_zero, Int.zero_add, Int.zero_tdiv, lt_min_iff, lt_ceilDiv hcw, lt_ceilDiv hch]
        have a1 := (Int.le_ediv_iff_mul_le (a := (x : Int) / cw) (b := x) hcw).1 le_rfl
        have b1 := (Int.le_ediv_iff_mul_le (a := (y : Int) / ch) (b := y) hch).1 le_rfl
        refine ⟨⟨Int.ediv_nonneg (by omega) hcw.le, by omega, ?_⟩, Int.ediv_nonneg (by omega) hch.le, by omega, ?_⟩
        · exact (Int.ediv_lt_iff_lt_mul hcw).2 (by rw [mul_comm]; exact hx)
        · exact (Int.ediv_lt_iff_lt_mul hch).2 (by rw [mul_comm]; exact hy)
    rw [hpx]

/-- A file is written at the beginning, at the end, and whenever the step is a multiple of the period. -/
theorem ppm_period (pre : List Nat) (period : Nat) (cw ch gw gh : Int) (color : Int → Int → Color) (step : Nat) (ev : Event) :
    (ppmStep pre period cw ch gw gh color step ev).isSome ↔ (ev = .stepFinished → period ∣ step) := by
  unfold ppmStep
  split
  · rename_i h
    simp only [Option.isSome_none, Bool.false_eq_true, false_iff]
    intro h'
    exact h.2 (Nat.mod_eq_zero_of_dvd (h' h.1))
  · rename_i h
    simp only [Option.isSome_some, true_iff]
    intro he
    by_contra hd
    exact h ⟨he, fun h0 => hd (Nat.dvd_of_mod_eq_zero h0)⟩

/-- Files of different steps have different names, also beyond step 9999. -/
theorem names_differ {pre : List Nat} {s t : Nat} (h : fileName pre s = fileName pre t) : s = t := by
  unfold fileName at h
  have h1 := List.append_cancel_right h
  have h2 := List.append_cancel_left h1
  have h3 := congrArg val h2
  rwa [val_zeros, val_zeros, val_dec, val_dec] at h3

/-! ## Viewports -/

/-- A panned excerpt of the grid: every pixel of the painter shows the cell at its place in the plane of all tiles, and pixels beyond the grid keep their color. -/
theorem viewport_shows_excerpt {cw ch gw gh : Int} (hcw : 0 < cw) (hch : 0 < ch) (color : Int → Int → Color) {ox oy : Int} (hox : 0 ≤ ox) (hoy : 0 ≤ oy) (i : Img) {x y : Int}
    (hin : i.In x y) :
    (plotViewport cw ch gw gh color ox oy i.w i.h i).px x y =
      if (x + ox) / cw < gw ∧ (y + oy) / ch < gh then color ((x + ox) / cw) ((y + oy) / ch) else i.px x y := by
  obtain ⟨_, _, hp⟩ := plotViewport_spec hcw hch gw gh color ox oy i.w i.h i
  rw [hp x y hin]
  refine if_congr ?_ rfl rfl
  obtain ⟨x0, x1, y0, y1⟩ := hin
  rw [Int.tdiv_eq_ediv_of_nonneg hox, Int.tdiv_eq_ediv_of_nonneg hoy, lt_min_iff, lt_min_iff, lt_ceilDiv hcw, lt_ceilDiv hch]
  have a1 := (Int.le_ediv_iff_mul_le (a := (x + ox) / cw) (b := x + ox) hcw).1 le_rfl
  have b1 := (Int.le_ediv_iff_mul_le (a := (y + oy) / ch) (b := y + oy) hch).1 le_rfl
  have a2 : ox / cw ≤ (x + ox) / cw := Int.ediv_le_ediv hcw (by omega)
  have b2 : oy / ch ≤ (y + oy) / ch := Int.ediv_le_ediv hch (by omega)
  constructor
  · rintro ⟨⟨_, _, h1⟩, _, _, h2⟩
    exact ⟨h1, h2⟩
  · rintro ⟨h1, h2⟩
    exact ⟨⟨a2, by omega, h1⟩, b2, by omega, h2⟩

/-- **Violation**: with a viewport whose origin is negative and no multiple of the tile size, the first column of tiles is not painted at all, although the next ones to the left of the
grid are (with what `grid.get` returns there: the other end of a torus, or the edge cell): the division rounds towards zero, not down. -/
theorem negative_viewport_gap {cw ch gw gh : Int} (hcw : 0 < cw) (hch : 0 < ch) (color : Int → Int → Color) {ox oy : Int} (hox : ox < 0) (hd : ¬ cw ∣ ox) (i : Img) {x y : Int}
    (hin : i.In x y) (hx : (x + ox) / cw = ox / cw) :
    (plotViewport cw ch gw gh color ox oy i.w i.h i).px x y = i.px x y := by
  obtain ⟨_, _, hp⟩ := plotViewport_spec hcw hch gw gh color ox oy i.w i.h i
  rw [hp x y hin, if_neg]
  rintro ⟨⟨h, _⟩, _⟩
  rw [hx] at h
  have h1 : ox.tdiv cw = -((-ox) / cw) := by
    have := Int.neg_tdiv (-ox) cw
    rw [neg_neg] at this
    rw [this, Int.tdiv_eq_ediv_of_nonneg (by omega)]
  rw [h1] at h
  have h2 := (Int.le_ediv_iff_mul_le (a := ox / cw) (b := ox) hcw).1 le_rfl
  have h3 := (Int.le_ediv_iff_mul_le (a := -ox / cw) (b := -ox) hcw).1 le_rfl
  have h4 : -(-ox / cw) * cw ≤ ox / cw * cw := mul_le_mul_of_nonneg_right h hcw.le
  have h5 : ox / cw * cw = ox := by
    rw [neg_mul] at h4
    omega
  exact hd ⟨ox / cw, by rw [mul_comm]; exact h5.symm⟩

/-! ## Excerpts and compositions of images -/

/-- `slice` returns the excerpt if it lies inside of the image … -/
theorem slice_exact (i : Img) {x y width height : Int} (hx : 0 ≤ x) (hx' : x + width ≤ i.w) (hy : 0 ≤ y) (hy' : y + height ≤ i.h) :
    ∃ r, i.slice x y width height = some r ∧ r.w = width ∧ r.h = height ∧
      ∀ X Y, 0 ≤ X → X < width → 0 ≤ Y → Y < height → r.px X Y = i.px (X + x) (Y + y) := by
  obtain ⟨r, h1, h2, h3, h4⟩ := copy_spec x y i 0 0 (Img.new width height noColor) width height (by
    intro a b ha hb hc hd _
    refine ⟨?_, ?_, ?_, ?_⟩ <;> omega)
  refine ⟨r, h1, h2, h3, ?_⟩
  intro X Y a b c d
  rw [h4 X Y ⟨a, b, c, d⟩, if_pos (by omega)]
  simp

/-- … and throws if it does not. -/
theorem slice_throws (i : Img) {x y width height : Int} (hw : 0 < width) (hh : 0 < height) :
    (i.slice x y width height).isNone ↔ ¬ (0 ≤ x ∧ x + width ≤ i.w ∧ 0 ≤ y ∧ y + height ≤ i.h) := by
  constructor
  · rintro h ⟨a, b, c, d⟩
    obtain ⟨r, hr, _⟩ := slice_exact i a b c d
    rw [hr] at h
    exact absurd h (by simp)
  · intro h
    have key : ∀ a b, 0 ≤ a → a < width → 0 ≤ b → b < height → ¬ i.In (x + a) (y + b) → (i.slice x y width height).isNone := by
      intro a b ha hb hc hd hout
      rw [Img.slice, copy_throws x y i 0 0 (Img.new width height noColor) width height ha hb hc hd ⟨by omega, by simpa [Img.new] using hb, by omega, by simpa [Img.new] using hd⟩ hout]
      rfl
    by_cases h1 : i.In (x + 0) (y + 0)
    · refine key (width - 1) (height - 1) (by omega) (by omega) (by omega) (by omega) ?_
      intro h2
      unfold Img.In at h1 h2
      exact h (by omega)
    · exact key 0 0 (by omega) (by omega) (by omega) (by omega) h1

/-- `paste` never throws, and replaces exactly the pixels covered by the other image, wherever it is placed. -/
theorem paste_exact (i img : Img) (x y : Int) :
    ∃ r, i.paste x y img = some r ∧ r.w = i.w ∧ r.h = i.h ∧
      ∀ X Y, i.In X Y → r.px X Y = if img.In (X - x) (Y - y) then img.px (X - x) (Y - y) else i.px X Y := by
  obtain ⟨r, h1, h2, h3, h4⟩ := copy_spec 0 0 img x y i img.w img.h (by
    intro a b ha hb hc hd _
    refine ⟨?_, ?_, ?_, ?_⟩ <;> omega)
  refine ⟨r, h1, h2, h3, ?_⟩
  intro X Y hin
  rw [h4 X Y hin]
  simp only [Int.add_zero]
  refine if_congr ?_ rfl rfl
  unfold Img.In
  omega

/-- A slice pasted back where it came from changes nothing. -/
theorem slice_paste (i : Img) {x y width height : Int} {r : Img} (hx : 0 ≤ x) (hx' : x + width ≤ i.w) (hy : 0 ≤ y) (hy' : y + height ≤ i.h)
    (hr : i.slice x y width height = some r) : ∃ j, i.paste x y r = some j ∧ ∀ X Y, i.In X Y → j.px X Y = i.px X Y := by
  obtain ⟨r', h1, h2, h3, h4⟩ := slice_exact i hx hx' hy hy'
  rw [hr] at h1
  cases h1
  obtain ⟨j, g1, g2, g3, g4⟩ := paste_exact i r x y
  refine ⟨j, g1, ?_⟩
  intro X Y hin
  rw [g4 X Y hin]
  split
  · rename_i h
    obtain ⟨a, b, c, d⟩ := h
    rw [h2] at b
    rw [h3] at d
    rw [h4 _ _ a b c d]
    simp
  · rfl

/-! ## Palettes -/

/-- what `addColor` calls leave behind: the last color given for each value -/
def anchors (l : List (ℚ × Color)) (k : ℚ) : Option Color := (l.reverse.find? fun e => e.1 = k).map (·.2)

/-- the palette after a sequence of `addColor` calls -/
def build (l : List (ℚ × Color)) : PMap := l.foldl (fun m e => addColor m e.1 e.2) []

theorem build_spec (l : List (ℚ × Color)) : Sorted (build l) ∧ ∀ k, find (build l) k = anchors l k := by
  induction l using List.reverseRecOn with
  | nil => exact ⟨List.Pairwise.nil, fun k => rfl⟩
  | append_singleton l e ih =>
    obtain ⟨h1, h2⟩ := ih
    have hb : build (l ++ [e]) = addColor (build l) e.1 e.2 := by simp [build]
    rw [hb]
    refine ⟨addColor_sorted h1 _ _, ?_⟩
    intro k
    rw [find_addColor h1, h2]
    unfold anchors
    rw [List.reverse_append, List.reverse_singleton, List.singleton_append, List.find?_cons]
    by_cases h : e.1 = k
    · simp [h]
    · simp [h, Ne.symm h]

theorem mem_build (l : List (ℚ × Color)) (k : ℚ) (c : Color) : (k, c) ∈ build l ↔ anchors l k = some c := by
  rw [mem_find (build_spec l).1, (build_spec l).2]

/-- A palette without colors throws, and only such a palette does. -/
theorem palette_defined (l : List (ℚ × Color)) (v : ℚ) : palette (build l) v = none ↔ l = [] := by
  constructor
  · intro h
    by_contra hne
    have hm : build l ≠ [] := by
      intro h0
      obtain ⟨e, he⟩ := List.exists_mem_of_ne_nil l hne
      have : (anchors l e.1).isSome := by
        unfold anchors
        rw [Option.isSome_map, List.find?_isSome]
        exact ⟨e, by simpa using he, by simp⟩
      obtain ⟨c, hc⟩ := Option.isSome_iff_exists.1 this
      have := (mem_build l e.1 c).2 hc
      rw [h0] at this
      exact absurd this (by simp)
    obtain ⟨_, _, h3⟩ := before_spec (build_spec l).1 v
    unfold palette at h
    split at h
    · rename_i h1 h2
      rw [List.getLast?_eq_none_iff.1 h1, h2] at h3
      exact hm h3
    all_goals cases h
  · rintro rfl
    rfl

/-- On and outside of the given values the palette returns the given colors: at a value its color, below all values the color of the smallest, above all values the color of the largest. -/
theorem palette_at (l : List (ℚ × Color)) {v : ℚ} {c : Color} (hc : anchors l v = some c) :
    ∃ d, palette (build l) v = some d ∧ red d = red c ∧ green d = green c ∧ blue d = blue c := by
  have hs := (build_spec l).1
  have hmem := (mem_build l v c).2 hc
  obtain ⟨_, h2, h3⟩ := before_spec hs v
  have hbefore : (v, c) ∈ (upperBound (build l) v).1 := by
    rw [h3] at hmem
    rcases List.mem_append.1 hmem with h | h
    · exact h
    · exact absurd (h2 _ h).2 (lt_irrefl v)
  cases hl : (upperBound (build l) v).1.getLast? with
  | none =>
    rw [List.getLast?_eq_none_iff.1 hl] at hbefore
    exact absurd hbefore (by simp)
  | some e =>
    obtain ⟨e1, e2, e3⟩ := before_last hs hl
    have hev : e.1 = v := le_antisymm e2 (e3 _ hmem le_rfl)
    have hec : e.2 = c := by
      have := (mem_find hs).1 e1
      rw [hev, (build_spec l).2, hc] at this
      exact (Option.some.inj this).symm
    unfold palette
    rw [hl]
    cases hu : (upperBound (build l) v).2 with
    | nil => exact ⟨_, rfl, by rw [hec], by rw [hec], by rw [hec]⟩
    | cons u r =>
      obtain ⟨_, u2, _⟩ := after_first hs hu
      refine ⟨_, rfl, ?_⟩
      simp only [hev, hec]
      have hd : u.1 - v ≠ 0 := by
        have : 0 < u.1 - v := by linarith
        exact this.ne'
      have hm : ∀ a b : Nat, mixed a b (v - v) (u.1 - v - (v - v)) (u.1 - v) = a := by
        intro a b
        unfold mixed
        field_simp
        ring
      rw [hm, hm, hm]
      have q : ∀ n : Nat, n ≤ 255 → (n : ℚ) ≤ 255 := fun n h => by exact_mod_cast h
      obtain ⟨a1, a2, a3⟩ := channelsD (Nat.cast_nonneg _) (q _ (red_le c)) (Nat.cast_nonneg _) (q _ (green_le c)) (Nat.cast_nonneg _) (q _ (blue_le c))
      rw [Int.floor_natCast] at a1 a2 a3
      exact ⟨by exact_mod_cast a1, by exact_mod_cast a2, by exact_mod_cast a3⟩

theorem palette_below (l : List (ℚ × Color)) {v k : ℚ} {c : Color} (hk : anchors l k = some c) (hv : v < k) (hmin : ∀ k' c', anchors l k' = some c' → k ≤ k') :
    palette (build l) v = some c := by
  have hs := (build_spec l).1
  have hmem := (mem_build l k c).2 hk
  obtain ⟨h1, h2, h3⟩ := before_spec hs v
  have hb : (upperBound (build l) v).1 = [] := by
    rw [List.eq_nil_iff_forall_not_mem]
    intro e he
    obtain ⟨he1, he2⟩ := h1 e he
    have := hmin e.1 e.2 ((mem_build l e.1 e.2).1 he1)
    linarith
  unfold palette
  rw [hb]
  cases hu : (upperBound (build l) v).2 with
  | nil =>
    rw [hb, hu] at h3
    rw [h3] at hmem
    exact absurd hmem (by simp)
  | cons u r =>
    obtain ⟨u1, u2, u3⟩ := after_first hs hu
    have : u.1 = k := le_antisymm (u3 _ hmem hv) (hmin u.1 u.2 ((mem_build l u.1 u.2).1 u1))
    have h := (mem_build l u.1 u.2).1 u1
    rw [this, hk] at h
    simp only [List.getLast?_nil]
    exact h.symm

theorem palette_above (l : List (ℚ × Color)) {v k : ℚ} {c : Color} (hk : anchors l k = some c) (hv : k ≤ v) (hmax : ∀ k' c', anchors l k' = some c' → k' ≤ k) :
    palette (build l) v = some c := by
  have hs := (build_spec l).1
  have hmem := (mem_build l k c).2 hk
  obtain ⟨h1, h2, h3⟩ := before_spec hs v
  have hu : (upperBound (build l) v).2 = [] := by
    rw [List.eq_nil_iff_forall_not_mem]
    intro e he
    obtain ⟨he1, he2⟩ := h2 e he
    have := hmax e.1 e.2 ((mem_build l e.1 e.2).1 he1)
    linarith
  unfold palette
  rw [hu]
  cases hl : (upperBound (build l) v).1.getLast? with
  | none =>
    rw [hu, List.getLast?_eq_none_iff.1 hl] at h3
    rw [h3] at hmem
    exact absurd hmem (by simp)
  | some e =>
    obtain ⟨e1, e2, e3⟩ := before_last hs hl
    have : e.1 = k := le_antisymm (hmax e.1 e.2 ((mem_build l e.1 e.2).1 e1)) (e3 _ hmem hv)
    have h := (mem_build l e.1 e.2).1 e1
    rw [this, hk] at h
    exact h.symm

/-- Between two neighboring values each channel is the linear interpolation, rounded down, and hence between those of the two colors. -/
theorem palette_between (l : List (ℚ × Color)) {v k1 k2 : ℚ} {c1 c2 : Color} (h1 : anchors l k1 = some c1) (h2 : anchors l k2 = some c2) (hv1 : k1 ≤ v) (hv2 : v < k2)
    (hgap : ∀ k c, anchors l k = some c → k ≤ k1 ∨ k2 ≤ k) :
    ∃ d, palette (build l) v = some d ∧ ∀ ch ∈ [red, green, blue],
      (ch d : Int) = ⌊(ch c1 : ℚ) + ((ch c2 : ℚ) - ch c1) * ((v - k1) / (k2 - k1))⌋ ∧ min (ch c1) (ch c2) ≤ ch d ∧ ch d ≤ max (ch c1) (ch c2) := by
  have hs := (build_spec l).1
  have m1 := (mem_build l k1 c1).2 h1
  have m2 := (mem_build l k2 c2).2 h2
  obtain ⟨b1, b2, b3⟩ := before_spec hs v
  cases hl : (upperBound (build l) v).1.getLast? with
  | none =>
    exfalso
    rw [List.getLast?_eq_none_iff.1 hl, List.nil_append] at b3
    rw [b3] at m1
    exact absurd (b2 _ m1).2 (not_lt.2 hv1)
  | some e =>
    cases hu : (upperBound (build l) v).2 with
    | nil =>
      exfalso
      rw [hu, List.append_nil] at b3
      rw [b3] at m2
      exact absurd (b1 _ m2).2 (not_le.2 hv2)
    | cons u r =>
      obtain ⟨e1, e2, e3⟩ := before_last hs hl
      obtain ⟨u1, u2, u3⟩ := after_first hs hu
      have ek : e.1 = k1 := by
        refine le_antisymm ?_ (e3 _ m1 hv1)
        rcases hgap e.1 e.2 ((mem_build l e.1 e.2).1 e1) with h | h
        · exact h
        · linarith
      have uk : u.1 = k2 := by
        refine le_antisymm (u3 _ m2 hv2) ?_
        rcases hgap u.1 u.2 ((mem_build l u.1 u.2).1 u1) with h | h
        · linarith
        · exact h
      have ec : e.2 = c1 := by
        have h := (mem_build l e.1 e.2).1 e1
        rw [ek, h1] at h
        exact (Option.some.inj h).symm
      have uc : u.2 = c2 := by
        have h := (mem_build l u.1 u.2).1 u1
        rw [uk, h2] at h
        exact (Option.some.inj h).symm
      unfold palette
      rw [hl, hu]
      simp only [ek, uk, ec, uc]
      refine ⟨_, rfl, ?_⟩
      have hb : ∀ a b : Nat, a ≤ 255 → b ≤ 255 → 0 ≤ mixed a b (v - k1) (k2 - k1 - (v - k1)) (k2 - k1) ∧ mixed a b (v - k1) (k2 - k1 - (v - k1)) (k2 - k1) ≤ 255 := by
        intro a b ha hb
        obtain ⟨p, q⟩ := mixed_bounds (lo := a) (hi := b) hv1 hv2
        refine ⟨le_trans (Nat.cast_nonneg _) p, q.trans ?_⟩
        exact_mod_cast max_le ha hb
      obtain ⟨r1, r2⟩ := hb _ _ (red_le c1) (red_le c2)
      obtain ⟨g1, g2⟩ := hb _ _ (green_le c1) (green_le c2)
      obtain ⟨l1, l2⟩ := hb _ _ (blue_le c1) (blue_le c2)
      obtain ⟨x1, x2, x3⟩ := channelsD r1 r2 g1 g2 l1 l2
      have fin : ∀ a b d : Nat, (d : Int) = ⌊mixed a b (v - k1) (k2 - k1 - (v - k1)) (k2 - k1)⌋ →
          (d : Int) = ⌊(a : ℚ) + ((b : ℚ) - a) * ((v - k1) / (k2 - k1))⌋ ∧ min a b ≤ d ∧ d ≤ max a b := by
        intro a b d hd
        obtain ⟨p, q⟩ := mixed_bounds (lo := a) (hi := b) hv1 hv2
        refine ⟨?_, ?_, ?_⟩
        · rw [hd]
          congr 1
          unfold mixed
          have : k2 - k1 ≠ 0 := by
            have : 0 < k2 - k1 := by linarith
            exact this.ne'
          field_simp
          ring
        · have : ((min a b : ℕ) : Int) ≤ ⌊mixed a b (v - k1) (k2 - k1 - (v - k1)) (k2 - k1)⌋ := Int.le_floor.2 (by exact_mod_cast p)
          rw [← hd] at this
          exact_mod_cast this
        · have h := (Int.floor_le (mixed a b (v - k1) (k2 - k1 - (v - k1)) (k2 - k1))).trans q
          rw [← hd] at h
          exact_mod_cast h
      intro ch hch
      simp only [List.mem_cons, List.not_mem_nil, or_false] at hch
      rcases hch with rfl | rfl | rfl
      · exact fin _ _ _ x1
      · exact fin _ _ _ x2
      · exact fin _ _ _ x3

/-! ## The default palette -/

/-- position of a value in the range, in quarters -/
def quarter (min max v : ℚ) : ℚ := 4 * (v - min) / (max - min)

def clamp (q : ℚ) : ℚ := if q < 0 then 0 else if 1 < q then 1 else q

/-- `QuickPalette` runs from blue over cyan, green and yellow to red, each channel being the stated function of the position; smaller values are black, larger ones white. -/
theorem quickPalette_hue {min max v : ℚ} (hm : min < max) :
    (v < min → quickPalette min max v = some BLACK) ∧ (max < v → quickPalette min max v = some WHITE) ∧
      (min ≤ v → v ≤ max → ∃ c, quickPalette min max v = some c ∧
        (red c : Int) = ⌊255 * clamp (quarter min max v - 2)⌋ ∧
        (green c : Int) = ⌊255 * clamp (if quarter min max v < 2 then quarter min max v else 4 - quarter min max v)⌋ ∧
        (blue c : Int) = ⌊255 * clamp (2 - quarter min max v)⌋) := by
  refine ⟨?_, ?_, ?_⟩
  · intro h
    simp [quickPalette, h]
  · intro h
    have : ¬ v < min := by linarith
    simp [quickPalette, this, h]
  · intro h1 h2
    have hd : 0 < max - min := by linarith
    have hd' : max - min ≠ 0 := hd.ne'
    obtain ⟨q, hq⟩ : ∃ q, quarter min max v = q := ⟨_, rfl⟩
    have hv : v = min + q * (max - min) / 4 := by
      rw [← hq]
      unfold quarter
      field_simp
      ring
    have q0 : 0 ≤ q := by
      rw [← hq]
      unfold quarter
      apply div_nonneg <;> linarith
    have q4 : q ≤ 4 := by
      rw [← hq]
      unfold quarter
      rw [div_le_iff₀ hd]
      linarith
    have m1 : v < (min * 3 + max * 1) / 4 ↔ q < 1 := by
      rw [hv]
      constructor <;> intro h <;> nlinarith
    have m2 : v < (min * 2 + max * 2) / 4 ↔ q < 2 := by
      rw [hv]
      constructor <;> intro h <;> nlinarith
    have m3 : v < (min * 1 + max * 3) / 4 ↔ q < 3 := by
      rw [hv]
      constructor <;> intro h <;> nlinarith
    rw [hq]
    unfold quickPalette
    simp only
    rw [if_neg (not_lt.2 h1), if_neg (not_lt.2 h2), if_neg hm.ne]
    simp only [m1, m2, m3]
    have e1 : (v - min) * (255 * 4 / (max - min)) = 255 * q := by
      rw [hv]; field_simp; ring
    have e2 : ((min * 2 + max * 2) / 4 - v) * (255 * 4 / (max - min)) = 255 * (2 - q) := by
      rw [hv]; field_simp; ring
    have e3 : (v - (min * 2 + max * 2) / 4) * (255 * 4 / (max - min)) = 255 * (q - 2) := by
      rw [hv]; field_simp; ring
    have e4 : (max - v) * (255 * 4 / (max - min)) = 255 * (4 - q) := by
      rw [hv]; field_simp; ring
    rw [e1, e2, e3, e4]
    by_cases c1 : q < 1
    · rw [if_pos c1]
      obtain ⟨a, b, c⟩ := channelsD (r := 0) (g := 255 * q) (b := 255) (by norm_num) (by norm_num) (by linarith) (by linarith) (by norm_num) (by norm_num)
      refine ⟨_, rfl, ?_, ?_, ?_⟩
      · rw [a, clamp, if_pos (by linarith)]; simp
      · rw [b, if_pos (by linarith), clamp, if_neg (by linarith), if_neg (by linarith)]
      · rw [c, clamp, if_neg (by linarith), if_pos (by linarith)]; simp
    · rw [if_neg c1]
      by_cases c2 : q < 2
      · rw [if_pos c2]
        obtain ⟨a, b, c⟩ := channelsD (r := 0) (g := 255) (b := 255 * (2 - q)) (by norm_num) (by norm_num) (by norm_num) (by norm_num) (by linarith) (by linarith)
        refine ⟨_, rfl, ?_, ?_, ?_⟩
        · rw [a, clamp, if_pos (by linarith)]; simp
        · rw [b, if_pos c2, clamp, if_neg (by linarith)]
          split
          · simp
          · have : q = 1 := by linarith
            rw [this]; simp
        · rw [c, clamp, if_neg (by linarith), if_neg (by linarith)]
      · rw [if_neg c2]
        by_cases c3 : q < 3
        · rw [if_pos c3]
          obtain ⟨a, b, c⟩ := channelsD (r := 255 * (q - 2)) (g := 255) (b := 0) (by linarith) (by linarith) (by norm_num) (by norm_num) (by norm_num) (by norm_num)
          refine ⟨_, rfl, ?_, ?_, ?_⟩
          · rw [a, clamp, if_neg (by linarith), if_neg (by linarith)]
          · rw [b, if_neg c2, clamp, if_neg (by linarith), if_pos (by linarith)]; simp
          · rw [c, clamp]
            split
            · simp
            · have : q = 2 := by linarith
              rw [this]; norm_num
        · rw [if_neg c3]
          obtain ⟨a, b, c⟩ := channelsD (r := 255) (g := 255 * (4 - q)) (b := 0) (by norm_num) (by norm_num) (by linarith) (by linarith) (by norm_num) (by norm_num)
          refine ⟨_, rfl, ?_, ?_, ?_⟩
          · rw [a, clamp, if_neg (by linarith)]
            split
            · simp
            · have : q = 3 := by linarith
              rw [this]; norm_num
          · rw [b, if_neg c2, clamp, if_neg (by linarith), if_neg (by linarith)]
          · rw [c, clamp, if_pos (by linarith)]; simp

/-- **Violation**: with `min = max` – the arguments by default – the palette has no defined color for exactly this value. -/
theorem quickPalette_point (m v : ℚ) : quickPalette m m v = none ↔ v = m := by
  unfold quickPalette
  simp only
  constructor
  · intro h
    by_contra hne
    rcases lt_or_gt_of_ne hne with h1 | h1
    · rw [if_pos h1] at h
      cases h
    · rw [if_neg (not_lt.2 h1.le), if_pos h1] at h
      cases h
  · rintro rfl
    simp

/-- **Violation**: components beyond 255 are not clipped but change the next channel: `Color(0, 255, 256)` is neither cyan nor has its green. -/
theorem component_overflow (r g : Int) (hr : 0 ≤ r) (hr' : r < 255) (hg : g = 255) : (green (mkColor r g 256) : Int) = 0 ∧ (red (mkColor r g 256) : Int) = r + 1 := by
  subst hg
  unfold red green mkColor
  constructor <;> omega

/-! ## Non-vacuity -/

def demoColor (x y : Int) : Color := mkColor (10 * x) (20 * y) 7

example : ∃ n f, ppmStep [97] 5 2 1 2 1 demoColor 10 .stepFinished = some (n, f) ∧ n = [97, 46, 48, 48, 49, 48, 46, 112, 112, 109] ∧
    f = [80, 54, 32, 52, 32, 49, 32, 50, 53, 53, 10, 0, 0, 7, 0, 0, 7, 10, 0, 7, 10, 0, 7] ∧
    readPPM f = some (4, 1, [(0, 0, 7), (0, 0, 7), (10, 0, 7), (10, 0, 7)]) := ⟨_, _, rfl, by decide +kernel, by decide +kernel, by decide +kernel⟩

example : ppmStep [97] 5 2 1 2 1 demoColor 11 .stepFinished = none := by decide +kernel

/-- panned by three pixels: tiles of width 4 -/
example : (plotViewport 4 4 10 10 demoColor 3 3 8 8 (Img.new 8 8 noColor)).px 0 1 = mkColor 0 20 7 ∧
    (plotViewport 4 4 10 10 demoColor 3 3 8 8 (Img.new 8 8 noColor)).px 5 1 = mkColor 20 20 7 := by
  decide +kernel

/-- origin -5 with tiles of width 4: the first pixel stays blank, the second one is painted -/
example : (plotViewport 4 4 10 10 demoColor (-5) 0 8 8 (Img.new 8 8 noColor)).px 0 0 = noColor ∧
    (plotViewport 4 4 10 10 demoColor (-5) 0 8 8 (Img.new 8 8 noColor)).px 1 0 = demoColor (-1) 0 := by
  decide +kernel

example : (palette (build [(0, BLACK), (1, WHITE), (0, mkColor 55 0 0)]) (1 / 2)).map red = some 155 := by decide +kernel

example : quickPalette 0 4 (1 / 2) = some (mkColor 0 127 255) ∧ quickPalette 0 4 4 = some (mkColor 255 0 0) ∧ quickPalette 0 4 0 = some (mkColor 0 0 255) := by
  decide +kernel

end LGD.C66
