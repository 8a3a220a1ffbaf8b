import Verif.Image.ImageModel
import Mathlib.Tactic.Linarith
import Mathlib.Tactic.Ring
import Mathlib.Tactic.Push

/-!
# Loops over pixels
-/

namespace LGD.Image

theorem loop_empty {σ : Type} {lo hi : Int} (f : Int → σ → σ) (s : σ) (h : hi ≤ lo) : loop lo hi f s = s := by
  have : (hi - lo).toNat = 0 := by omega
  simp [loop, this]

/-- invariants of loops -/
theorem loop_inv {σ : Type} {lo hi : Int} {f : Int → σ → σ} {s : σ} (P : Int → σ → Prop) (h : lo ≤ hi) (h0 : P lo s)
    (hstep : ∀ i s, lo ≤ i → i < hi → P i s → P (i + 1) (f i s)) : P hi (loop lo hi f s) := by
  have : ∀ n : Nat, (n : Int) ≤ hi - lo → P (lo + n) ((List.range n).foldl (fun s (i : Nat) => f (lo + (i : Int)) s) s) := by
    intro n
    induction n with
    | zero => intro _; simpa using h0
    | succ n ih =>
      intro hn
      rw [List.range_succ, List.foldl_append]
      have := hstep (lo + n) _ (by omega) (by omega) (ih (by omega))
      simpa [add_assoc] using this
  have h1 := this (hi - lo).toNat (by omega)
  have h2 : lo + ((hi - lo).toNat : Int) = hi := by omega
  rw [h2] at h1
  exact h1

/-- the effect of the fill loop on the pixels -/
theorem fillBox_spec (i : Img) (ux uy bw bh : Int) (c : Color) :
    (i.fillBox ux uy bw bh c).w = i.w ∧ (i.fillBox ux uy bw bh c).h = i.h ∧ (i.fillBox ux uy bw bh c).edge = i.edge ∧
      ∀ x y, (i.fillBox ux uy bw bh c).px x y =
        if i.In x y ∧ ux ≤ x ∧ x < ux + bw ∧ uy ≤ y ∧ y < uy + bh then c else i.px x y := by
  unfold Img.fillBox
  simp only
  set sx := max ux 0 with hsx
  set sy := max uy 0 with hsy
  set ex := min (ux + bw) i.w with hex
  set ey := min (uy + bh) i.h with hey
  by_cases hy : ey ≤ sy
  · rw [loop_empty _ _ hy]
    refine ⟨rfl, rfl, rfl, ?_⟩
    intro x y
    rw [if_neg]
    rintro ⟨⟨h1, h2, h3, h4⟩, h5, h6, h7, h8⟩
    omega
  · have key := loop_inv (lo := sy) (hi := ey) (s := i)
      (f := fun y i => loop sx ex (fun x i => i.set x y c) i)
      (fun j t => t.w = i.w ∧ t.h = i.h ∧ t.edge = i.edge ∧ ∀ x y, t.px x y = if (sx ≤ x ∧ x < ex) ∧ sy ≤ y ∧ y < j then c else i.px x y)
      (by omega)
      ⟨rfl, rfl, rfl, fun x y => by rw [if_neg (by omega)]⟩
      (by
        rintro j t hj1 hj2 ⟨hw, hh, he, hp⟩
        by_cases hx : ex ≤ sx
        · rw [loop_empty _ _ hx]
          refine ⟨hw, hh, he, ?_⟩
          intro x y
          rw [hp, if_neg (by omega), if_neg (by omega)]
        · have := loop_inv (lo := sx) (hi := ex) (s := t) (f := fun x i => i.set x j c)
            (fun k u => u.w = i.w ∧ u.h = i.h ∧ u.edge = i.edge ∧
              ∀ x y, u.px x y = if ((sx ≤ x ∧ x < ex) ∧ sy ≤ y ∧ y < j) ∨ (y = j ∧ sx ≤ x ∧ x < k) then c else i.px x y)
            (by omega)
            ⟨hw, hh, he, fun x y => by
              rw [hp]
              exact if_congr (by omega) rfl rfl⟩
            (by
              rintro k u hk1 hk2 ⟨uw, uh, ue, up⟩
              have hin : u.In k j := by
                refine ⟨?_, ?_, ?_, ?_⟩ <;> omega
              simp only [Img.set, if_pos hin]
              refine ⟨uw, uh, ue, ?_⟩
              intro x y
              by_cases hxy : x = k ∧ y = j
              · rw [if_pos hxy, if_pos (by omega)]
              · rw [if_neg hxy, up]
                exact if_congr (by omega) rfl rfl)
          obtain ⟨a, b, d, e⟩ := this
          refine ⟨a, b, d, ?_⟩
          intro x y
          rw [e]
          exact if_congr (by omega) rfl rfl)
    obtain ⟨a, b, d, e⟩ := key
    refine ⟨a, b, d, ?_⟩
    intro x y
    rw [e]
    refine if_congr ?_ rfl rfl
    unfold Img.In
    omega

theorem tile_iff {c X k : Int} (hc : 0 < c) : (k * c ≤ X ∧ X < k * c + c) ↔ X / c = k := by
  constructor
  · rintro ⟨h1, h2⟩
    have a : k ≤ X / c := (Int.le_ediv_iff_mul_le hc).2 h1
    have b : X / c < k + 1 := (Int.ediv_lt_iff_lt_mul hc).2 (by rw [add_mul, one_mul]; exact h2)
    omega
  · rintro rfl
    have a := (Int.le_ediv_iff_mul_le (a := X / c) (b := X) hc).1 le_rfl
    have b := (Int.ediv_lt_iff_lt_mul (a := X) (b := X / c + 1) hc).1 (by omega)
    rw [add_mul, one_mul] at b
    exact ⟨a, b⟩

/-- the effect of plotting on the pixels: exactly the tiles of the cells in `[sx, ex) × [sy, ey)` are painted -/
theorem plotViewport_spec {cw ch : Int} (hcw : 0 < cw) (hch : 0 < ch) (gw gh : Int) (color : Int → Int → Color) (ox oy vw vh : Int) (i : Img) :
    (plotViewport cw ch gw gh color ox oy vw vh i).w = i.w ∧ (plotViewport cw ch gw gh color ox oy vw vh i).h = i.h ∧
      ∀ x y, i.In x y → (plotViewport cw ch gw gh color ox oy vw vh i).px x y =
        if (ox.tdiv cw ≤ (x + ox) / cw ∧ (x + ox) / cw < min (ceilDiv (ox + vw) cw) gw) ∧
            oy.tdiv ch ≤ (y + oy) / ch ∧ (y + oy) / ch < min (ceilDiv (oy + vh) ch) gh
        then color ((x + ox) / cw) ((y + oy) / ch) else i.px x y := by
  unfold plotViewport
  simp only
  generalize hsx : ox.tdiv cw = sx
  generalize hsy : oy.tdiv ch = sy
  generalize hex : min (ceilDiv (ox + vw) cw) gw = ex
  generalize hey : min (ceilDiv (oy + vh) ch) gh = ey
  have hbox : ∀ (x y k j : Int), (k * cw - ox + 0 ≤ x ∧ x < k * cw - ox + 0 + cw ∧ j * ch - oy + 0 ≤ y ∧ y < j * ch - oy + 0 + ch) ↔
      (x + ox) / cw = k ∧ (y + oy) / ch = j := by
    intro x y k j
    rw [← tile_iff hcw, ← tile_iff hch]
    constructor
    · rintro ⟨a, b, c, d⟩
      exact ⟨⟨by linarith, by linarith⟩, by linarith, by linarith⟩
    · rintro ⟨⟨a, b⟩, c, d⟩
      exact ⟨by linarith, by linarith, by linarith, by linarith⟩
  by_cases hy : ey ≤ sy
  · rw [loop_empty _ _ hy]
    refine ⟨rfl, rfl, ?_⟩
    intro x y _
    rw [if_neg (by omega)]
  · have key := loop_inv (lo := sy) (hi := ey) (s := i)
      (f := fun y i => loop sx ex (fun x i => i.fillBox (x * cw - ox + 0) (y * ch - oy + 0) cw ch (color x y)) i)
      (fun j t => t.w = i.w ∧ t.h = i.h ∧ ∀ x y, i.In x y → t.px x y =
        if (sx ≤ (x + ox) / cw ∧ (x + ox) / cw < ex) ∧ sy ≤ (y + oy) / ch ∧ (y + oy) / ch < j
        then color ((x + ox) / cw) ((y + oy) / ch) else i.px x y)
      (by omega)
      ⟨rfl, rfl, fun x y _ => by rw [if_neg (by omega)]⟩
      (by
        rintro j t hj1 hj2 ⟨hw, hh, hp⟩
        by_cases hx : ex ≤ sx
        · rw [loop_empty _ _ hx]
          refine ⟨hw, hh, ?_⟩
          intro x y hin
          rw [hp x y hin, if_neg (by omega), if_neg (by omega)]
        · have := loop_inv (lo := sx) (hi := ex) (s := t)
            (f := fun x i => i.fillBox (x * cw - ox + 0) (j * ch - oy + 0) cw ch (color x j))
            (fun k u => u.w = i.w ∧ u.h = i.h ∧ ∀ x y, i.In x y → u.px x y =
              if ((sx ≤ (x + ox) / cw ∧ (x + ox) / cw < ex) ∧ sy ≤ (y + oy) / ch ∧ (y + oy) / ch < j) ∨
                ((y + oy) / ch = j ∧ sx ≤ (x + ox) / cw ∧ (x + ox) / cw < k)
              then color ((x + ox) / cw) ((y + oy) / ch) else i.px x y)
            (by omega)
            ⟨hw, hh, fun x y hin => by
              rw [hp x y hin]
              exact if_congr (by omega) rfl rfl⟩
            (by
              rintro k u hk1 hk2 ⟨uw, uh, up⟩
              obtain ⟨fw, fh, _, fp⟩ := fillBox_spec u (k * cw - ox + 0) (j * ch - oy + 0) cw ch (color k j)
              refine ⟨fw.trans uw, fh.trans uh, ?_⟩
              intro x y hin
              have hin' : u.In x y := by
                unfold Img.In at hin ⊢
                omega
              rw [fp]
              simp only [hbox]
              by_cases hxy : (x + ox) / cw = k ∧ (y + oy) / ch = j
              · rw [if_pos ⟨hin', hxy⟩, if_pos (by omega), hxy.1, hxy.2]
              · rw [if_neg (fun h => hxy h.2), up x y hin]
                exact if_congr (by omega) rfl rfl)
          obtain ⟨a, b, e⟩ := this
          refine ⟨a, b, ?_⟩
          intro x y hin
          rw [e x y hin]
          exact if_congr (by omega) rfl rfl)
    exact key

theorem lt_ceilDiv {a b k : Int} (hb : 0 < b) : k < ceilDiv a b ↔ k * b < a := by
  unfold ceilDiv
  have := Int.ediv_lt_iff_lt_mul (a := -a) (b := -k) hb
  constructor
  · intro h
    have := this.1 (by omega)
    rw [neg_mul] at this
    omega
  · intro h
    have := this.2 (by rw [neg_mul]; omega)
    omega

/-! ## Copies -/

theorem loop_none {lo hi : Int} {f : Int → Option Img → Option Img} (hf : ∀ i, f i none = none) : loop lo hi f none = none := by
  unfold loop
  induction (List.range (hi - lo).toNat) with
  | nil => rfl
  | cons a l ih => simpa [hf] using ih

theorem copyPixel_none (a b : Int) (s : Img) (c d x y : Int) : copyPixel a b s c d x y none = none := rfl

/-- the copy loop: succeeds if and only if every pixel that is on the target comes from the source -/
theorem copy_spec (ulsx ulsy : Int) (source : Img) (ultx ulty : Int) (target : Img) (width height : Int) :
    ((∀ x y, 0 ≤ x → x < width → 0 ≤ y → y < height → target.In (ultx + x) (ulty + y) → source.In (ulsx + x) (ulsy + y)) →
      ∃ r, copy ulsx ulsy source ultx ulty target width height = some r ∧ r.w = target.w ∧ r.h = target.h ∧
        ∀ X Y, target.In X Y → r.px X Y = if 0 ≤ X - ultx ∧ X - ultx < width ∧ 0 ≤ Y - ulty ∧ Y - ulty < height
          then source.px (X - ultx + ulsx) (Y - ulty + ulsy) else target.px X Y) := by
  intro hall
  unfold copy
  by_cases hh : height ≤ 0
  · rw [loop_empty _ _ hh]
    refine ⟨_, rfl, rfl, rfl, ?_⟩
    intro X Y _
    rw [if_neg (by omega)]
  · refine loop_inv (lo := 0) (hi := height) (s := some target)
      (fun j t => ∃ r, t = some r ∧ r.w = target.w ∧ r.h = target.h ∧
        ∀ X Y, target.In X Y → r.px X Y = if 0 ≤ X - ultx ∧ X - ultx < width ∧ 0 ≤ Y - ulty ∧ Y - ulty < j
          then source.px (X - ultx + ulsx) (Y - ulty + ulsy) else target.px X Y) (by omega)
      ⟨_, rfl, rfl, rfl, fun X Y _ => by rw [if_neg (by omega)]⟩ ?_
    rintro j t hj1 hj2 ⟨r, rfl, hw, hh', hp⟩
    by_cases hx : width ≤ 0
    · simp only [loop_empty _ _ hx]
      refine ⟨_, rfl, hw, hh', ?_⟩
      intro X Y hin
      rw [hp X Y hin, if_neg (by omega), if_neg (by omega)]
    · have := loop_inv (lo := 0) (hi := width) (s := some r) (f := fun x t => copyPixel ulsx ulsy source ultx ulty x j t)
        (fun k t => ∃ r, t = some r ∧ r.w = target.w ∧ r.h = target.h ∧
          ∀ X Y, target.In X Y → r.px X Y = if (0 ≤ X - ultx ∧ X - ultx < width ∧ 0 ≤ Y - ulty ∧ Y - ulty < j) ∨
              (Y - ulty = j ∧ 0 ≤ X - ultx ∧ X - ultx < k)
            then source.px (X - ultx + ulsx) (Y - ulty + ulsy) else target.px X Y) (by omega)
        ⟨_, rfl, hw, hh', fun X Y hin => by
          rw [hp X Y hin]
          exact if_congr (by omega) rfl rfl⟩
        (by
          rintro k t hk1 hk2 ⟨u, rfl, uw, uh, up⟩
          simp only [copyPixel, Option.bind_some]
          have hiff : u.In (ultx + k) (ulty + j) ↔ target.In (ultx + k) (ulty + j) := by
            unfold Img.In
            omega
          by_cases hin : target.In (ultx + k) (ulty + j)
          · have hs := hall k j hk1 hk2 hj1 hj2 hin
            rw [if_neg (by simpa using hiff.2 hin), if_neg (by simpa using hs)]
            refine ⟨_, rfl, ?_⟩
            simp only [Img.set, if_pos (hiff.2 hin), Img.get, if_pos hs]
            refine ⟨uw, uh, ?_⟩
            intro X Y hXY
            by_cases he : X = ultx + k ∧ Y = ulty + j
            · rw [if_pos he, if_pos (by omega), he.1, he.2]
              congr 1 <;> omega
            · rw [if_neg he, up X Y hXY]
              exact if_congr (by omega) rfl rfl
          · rw [if_pos (fun h => hin (hiff.1 h))]
            refine ⟨_, rfl, uw, uh, ?_⟩
            intro X Y hXY
            rw [up X Y hXY]
            refine if_congr ?_ rfl rfl
            have : ¬ (X = ultx + k ∧ Y = ulty + j) := by
              rintro ⟨rfl, rfl⟩
              exact hin hXY
            omega)
      obtain ⟨r', h1, h2, h3, h4⟩ := this
      refine ⟨r', h1, h2, h3, ?_⟩
      intro X Y hin
      rw [h4 X Y hin]
      exact if_congr (by omega) rfl rfl

theorem copyPixel_dims {a b c d x y : Int} {s t r : Img} (h : copyPixel a b s c d x y (some t) = some r) : r.w = t.w ∧ r.h = t.h := by
  simp only [copyPixel, Option.bind_some] at h
  split at h
  · cases h; exact ⟨rfl, rfl⟩
  · split at h
    · cases h
    · cases h
      unfold Img.set
      split <;> exact ⟨rfl, rfl⟩

/-- … and throws otherwise -/
theorem copy_throws (ulsx ulsy : Int) (source : Img) (ultx ulty : Int) (target : Img) (width height : Int) {x y : Int} (hx : 0 ≤ x) (hx' : x < width)
    (hy : 0 ≤ y) (hy' : y < height) (hin : target.In (ultx + x) (ulty + y)) (hout : ¬ source.In (ulsx + x) (ulsy + y)) :
    copy ulsx ulsy source ultx ulty target width height = none := by
  unfold copy
  refine (loop_inv (lo := 0) (hi := height) (s := some target)
    (fun j t => (∀ r, t = some r → r.w = target.w ∧ r.h = target.h) ∧ (y < j → t = none)) (by omega)
    ⟨fun r h => by cases h; exact ⟨rfl, rfl⟩, fun h => absurd h (by omega)⟩ ?_).2 hy'
  rintro j t hj1 hj2 ⟨h1, h2⟩
  have := loop_inv (lo := 0) (hi := width) (s := t) (f := fun x t => copyPixel ulsx ulsy source ultx ulty x j t)
    (fun k t => (∀ r, t = some r → r.w = target.w ∧ r.h = target.h) ∧ (y < j → t = none) ∧ (y = j → x < k → t = none)) (by omega)
    ⟨h1, h2, fun _ h => absurd h (by omega)⟩
    (by
      rintro k t hk1 hk2 ⟨a, b, c⟩
      cases t with
      | none => exact ⟨fun r h => (by cases h), fun _ => rfl, fun _ _ => rfl⟩
      | some u =>
        obtain ⟨aw, ah⟩ := a u rfl
        refine ⟨?_, ?_, ?_⟩
        · intro r hr
          obtain ⟨p, q⟩ := copyPixel_dims hr
          exact ⟨p.trans aw, q.trans ah⟩
        · intro h
          exact absurd (b h) (by simp)
        · intro hj hk
          by_cases hkx : x < k
          · exact absurd (c hj hkx) (by simp)
          · have hk' : x = k := by omega
            subst hk' hj
            simp only [copyPixel, Option.bind_some]
            have : u.In (ultx + x) (ulty + y) := by
              unfold Img.In at hin ⊢
              omega
            rw [if_neg (by simpa using this), if_pos hout])
  refine ⟨this.1, ?_⟩
  intro hyj
  by_cases h : y < j
  · exact this.2.1 h
  · exact this.2.2 (by omega) hx'

end LGD.Image
