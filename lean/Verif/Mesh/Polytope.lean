import Verif.Mesh.PolytopeModel
import Mathlib.Tactic.Linarith
import Mathlib.Tactic.Ring
import Mathlib.Tactic.FieldSimp
import Mathlib.Tactic.LinearCombination
import Mathlib.Tactic.Positivity
import Mathlib.Tactic.NormNum

/-!
# Half-planes and their cut points
-/

namespace LGD.Mesh

/-- point on the ray from `q` in direction `u` -/
def ray (q u : V) (s : ℚ) : V := q.add (V.smul s u)

theorem val_ray (e : Plane) (q u : V) (s : ℚ) : e.val (ray q u s) = e.val q + s * u.dot e.dir := by
  simp only [Plane.val, ray, V.add, V.smul, V.sub, V.dot]
  ring

theorem turn_dot (d : V) : (turn d).dot d = 0 := by
  simp only [turn, V.dot]
  ring

theorem dot_comm (a b : V) : a.dot b = b.dot a := by
  simp only [V.dot]
  ring

theorem turn_self (d : V) : (turn d).dot (turn d) = d.dot d := by
  simp only [turn, V.dot]
  ring

/-- all planes contain the point (or it's on them) -/
def Closed (L : List Plane) (p : V) : Prop := ∀ e ∈ L, 0 ≤ e.val p

def Open (L : List Plane) (p : V) : Prop := ∀ e ∈ L, 0 < e.val p

theorem Open.closed {L : List Plane} {p : V} (h : Open L p) : Closed L p := fun e he => le_of_lt (h e he)

def InBox (S p : V) : Prop := 0 ≤ p.x ∧ p.x ≤ S.x ∧ 0 ≤ p.y ∧ p.y ≤ S.y

/-- the first plane which a ray hits -/
theorem exit {L : List Plane} {q u : V} (hq : Closed L q) (h : ∃ e ∈ L, u.dot e.dir < 0) :
    ∃ s, 0 ≤ s ∧ ∃ e ∈ L, u.dot e.dir < 0 ∧ e.val (ray q u s) = 0 ∧ Closed L (ray q u s) := by
  induction L with
  | nil => obtain ⟨e, he, -⟩ := h; cases he
  | cons f L ih =>
    have hqf := hq f (by simp)
    have hqL : Closed L q := fun e he => hq e (List.mem_cons_of_mem _ he)
    by_cases hL : ∃ e ∈ L, u.dot e.dir < 0
    · obtain ⟨s, hs, e, he, hd, hv, hc⟩ := ih hqL hL
      by_cases hf : 0 ≤ f.val (ray q u s)
      · refine ⟨s, hs, e, List.mem_cons_of_mem _ he, hd, hv, fun g hg => ?_⟩
        rcases List.mem_cons.1 hg with rfl | hg
        · exact hf
        · exact hc g hg
      · have hf' : u.dot f.dir < 0 := by
          rw [val_ray] at hf
          by_contra h0
          exact hf (by have := mul_nonneg hs (le_of_not_gt h0); linarith)
        refine ⟨f.val q / -(u.dot f.dir), div_nonneg hqf (by linarith), f, by simp, hf', ?_, fun g hg => ?_⟩
        · rw [val_ray]
          have : u.dot f.dir ≠ 0 := ne_of_lt hf'
          field_simp
          ring
        · rcases List.mem_cons.1 hg with rfl | hg
          · rw [val_ray]
            have : u.dot g.dir ≠ 0 := ne_of_lt hf'
            have : g.val q + g.val q / -(u.dot g.dir) * u.dot g.dir = 0 := by field_simp; ring
            rw [this]
          · have h1 := hc g hg
            have h2 := hqL g hg
            rw [val_ray] at h1 hf ⊢
            have hle : f.val q / -(u.dot f.dir) ≤ s := by
              rw [div_le_iff₀ (by linarith)]
              linarith
            have h0 : 0 ≤ f.val q / -(u.dot f.dir) := div_nonneg hqf (by linarith)
            by_cases hg0 : 0 ≤ u.dot g.dir
            · have := mul_nonneg h0 hg0; linarith
            · have := mul_le_mul_of_nonpos_right hle (le_of_not_ge hg0)
              linarith
    · have hf' : u.dot f.dir < 0 := by
        obtain ⟨e, he, hd⟩ := h
        rcases List.mem_cons.1 he with rfl | he
        · exact hd
        · exact absurd ⟨e, he, hd⟩ hL
      have h0 : 0 ≤ f.val q / -(u.dot f.dir) := div_nonneg hqf (by linarith)
      have hz : f.val (ray q u (f.val q / -(u.dot f.dir))) = 0 := by
        rw [val_ray]
        have : u.dot f.dir ≠ 0 := ne_of_lt hf'
        field_simp
        ring
      refine ⟨_, h0, f, by simp, hf', hz, fun g hg => ?_⟩
      rcases List.mem_cons.1 hg with rfl | hg
      · rw [hz]
      · rw [val_ray]
        have : 0 ≤ u.dot g.dir := le_of_not_gt fun h' => hL ⟨g, hg, h'⟩
        have := mul_nonneg h0 this
        have := hqL g hg
        linarith

/-- a ray leaves everything which is in a box -/
theorem leaves {S q u : V} (hu : u ≠ ⟨0, 0⟩) (hS : 0 ≤ S.x ∧ 0 ≤ S.y) (hq : ∀ s, 0 ≤ s → InBox S (ray q u s)) : False := by
  have key : ∀ (a b c : ℚ), b ≠ 0 → 0 ≤ c → (∀ s, 0 ≤ s → 0 ≤ a + s * b ∧ a + s * b ≤ c) → False := by
    intro a b c hb hc h
    have h0 := h 0 (le_refl _)
    rcases lt_or_gt_of_ne hb with hb | hb
    · have h1 := (h ((c + 1) / -b) (div_nonneg (by linarith) (by linarith))).1
      have : (c + 1) / -b * b = -(c + 1) := by have := ne_of_lt hb; field_simp
      linarith [h0.2]
    · have h1 := (h ((c + 1) / b) (div_nonneg (by linarith) (by linarith))).2
      have : (c + 1) / b * b = c + 1 := by have := ne_of_gt hb; field_simp
      linarith [h0.1]
  by_cases hx : u.x = 0
  · have hy : u.y ≠ 0 := fun hy => hu (V.ext hx hy)
    exact key q.y u.y S.y hy hS.2 fun s hs => ⟨(hq s hs).2.2.1, (hq s hs).2.2.2⟩
  · exact key q.x u.x S.x hx hS.1 fun s hs => ⟨(hq s hs).1, (hq s hs).2.1⟩

/-- what's between closed planes is bounded by a box -/
def Bounded (S : V) (L : List Plane) : Prop := ∀ p, Closed L p → InBox S p

theorem ray_hits {S : V} {L : List Plane} (hB : Bounded S L) {q u : V} (hq : Closed L q) (hu : u ≠ ⟨0, 0⟩) : ∃ e ∈ L, u.dot e.dir < 0 := by
  by_contra hno
  have hb := hB q hq
  refine leaves (S := S) (q := q) hu ⟨hb.1.trans hb.2.1, hb.2.2.1.trans hb.2.2.2⟩ fun s hs => hB _ fun e he => ?_
  rw [val_ray]
  have h1 : 0 ≤ u.dot e.dir := le_of_not_gt fun h => hno ⟨e, he, h⟩
  have := mul_nonneg hs h1
  have := hq e he
  linarith

/-! ## Cut points -/

/-- both planes contain the point in their boundary -/
def OnBoth (a b : Plane) (v : V) : Prop := a.val v = 0 ∧ b.val v = 0

/-- determinant of the directions -/
def cross (a b : V) : ℚ := a.x * b.y - a.y * b.x

theorem dot_turn (a b : V) : a.dot (turn b) = cross a b := by
  simp only [V.dot, turn, cross]
  ring

theorem onBoth_unique {a b : Plane} {v w : V} (hc : cross a.dir b.dir ≠ 0) (hv : OnBoth a b v) (hw : OnBoth a b w) : v = w := by
  obtain ⟨h1, h2⟩ := hv
  obtain ⟨h3, h4⟩ := hw
  simp only [Plane.val, V.sub, V.dot] at h1 h2 h3 h4
  unfold cross at hc
  refine V.ext ?_ ?_
  · have : (v.x - w.x) * (a.dir.x * b.dir.y - a.dir.y * b.dir.x) = 0 := by linear_combination b.dir.y * (h1 - h3) - a.dir.y * (h2 - h4)
    rcases mul_eq_zero.1 this with h | h
    · linarith
    · exact absurd h hc
  · have : (v.y - w.y) * (a.dir.x * b.dir.y - a.dir.y * b.dir.x) = 0 := by linear_combination a.dir.x * (h2 - h4) - b.dir.x * (h1 - h3)
    rcases mul_eq_zero.1 this with h | h
    · linarith
    · exact absurd h hc

theorem cutPoint'_spec (S : V) {a b : Plane} (ha : a.dir.y ≠ 0) (hb0 : b.dir ≠ ⟨0, 0⟩) :
    (cutPoint' S a b ≠ farAway → cross a.dir b.dir ≠ 0 ∧ OnBoth a b (cutPoint' S a b)) ∧
    (∀ v, cross a.dir b.dir ≠ 0 → OnBoth a b v → InBox S v → cutPoint' S a b = v) := by
  have main : cutPoint' S a b = farAway ∨ (cross a.dir b.dir ≠ 0 ∧ OnBoth a b (cutPoint' S a b)) := by
    unfold cutPoint'
    dsimp only [turn]
    by_cases hb : b.dir.y = 0
    · rw [if_pos hb]
      right
      have hbx : b.dir.x ≠ 0 := fun h => hb0 (V.ext h hb)
      refine ⟨?_, ?_, ?_⟩
      · unfold cross; rw [hb, mul_zero, zero_sub, neg_ne_zero]; exact mul_ne_zero ha hbx
      · simp only [Plane.val, V.sub, V.dot]
        field_simp
        ring
      · simp only [Plane.val, V.sub, V.dot, hb]
        ring
    · rw [if_neg hb]
      by_cases hm : -a.dir.x / a.dir.y = -b.dir.x / b.dir.y
      · rw [if_pos hm]; exact Or.inl rfl
      · rw [if_neg hm]
        split
        · exact Or.inl rfl
        · right
          have hc : cross a.dir b.dir ≠ 0 := by
            intro h
            apply hm
            unfold cross at h
            rw [div_eq_div_iff ha hb]
            linarith
          have hm' : -a.dir.x / a.dir.y - -b.dir.x / b.dir.y ≠ 0 := sub_ne_zero.2 hm
          refine ⟨hc, ?_, ?_⟩
          · simp only [Plane.val, V.sub, V.dot]
            field_simp
            ring
          · simp only [Plane.val, V.sub, V.dot]
            generalize hX : ((b.base.y - -b.dir.x / b.dir.y * b.base.x) - (a.base.y - -a.dir.x / a.dir.y * a.base.x)) / (-a.dir.x / a.dir.y - -b.dir.x / b.dir.y) = X
            have h1 : X * (-a.dir.x / a.dir.y - -b.dir.x / b.dir.y) = (b.base.y - -b.dir.x / b.dir.y * b.base.x) - (a.base.y - -a.dir.x / a.dir.y * a.base.x) := by
              rw [← hX]
              exact div_mul_cancel₀ _ hm'
            have h2 : -b.dir.x / b.dir.y * b.dir.y = -b.dir.x := div_mul_cancel₀ _ hb
            generalize -b.dir.x / b.dir.y = m2 at *
            generalize -a.dir.x / a.dir.y = m1 at *
            linear_combination b.dir.y * h1 + (X - b.base.x) * h2
  refine ⟨fun h => main.resolve_left h, fun v hc hv hS => ?_⟩
  rcases main with h | ⟨-, h⟩
  · exfalso
    unfold cutPoint' at h
    dsimp only [turn] at h
    obtain ⟨hv1, hv2⟩ := hv
    simp only [Plane.val, V.sub, V.dot] at hv1 hv2
    obtain ⟨s1, s2, s3, s4⟩ := hS
    by_cases hb : b.dir.y = 0
    · rw [if_pos hb] at h
      have hbx : b.dir.x ≠ 0 := fun h' => hb0 (V.ext h' hb)
      have : v.x = b.base.x := by
        rw [hb, mul_zero, add_zero] at hv2
        rcases mul_eq_zero.1 hv2 with h' | h'
        · linarith
        · exact absurd h' hbx
      have := congrArg V.x h
      simp only [farAway] at this
      linarith
    · rw [if_neg hb] at h
      have hm : ¬ -a.dir.x / a.dir.y = -b.dir.x / b.dir.y := by
        intro hm
        apply hc
        rw [div_eq_div_iff ha hb] at hm
        unfold cross
        linarith
      rw [if_neg hm] at h
      have hm' : -a.dir.x / a.dir.y - -b.dir.x / b.dir.y ≠ 0 := sub_ne_zero.2 hm
      have h1 : -a.dir.x / a.dir.y * a.dir.y = -a.dir.x := div_mul_cancel₀ _ ha
      have h2 : -b.dir.x / b.dir.y * b.dir.y = -b.dir.x := div_mul_cancel₀ _ hb
      generalize -b.dir.x / b.dir.y = m2 at *
      generalize -a.dir.x / a.dir.y = m1 at *
      have y1 : v.y = a.base.y + m1 * (v.x - a.base.x) := by
        have : (v.y - (a.base.y + m1 * (v.x - a.base.x))) * a.dir.y = 0 := by linear_combination hv1 - (v.x - a.base.x) * h1
        rcases mul_eq_zero.1 this with h' | h'
        · linarith
        · exact absurd h' ha
      have y2 : v.y = b.base.y + m2 * (v.x - b.base.x) := by
        have : (v.y - (b.base.y + m2 * (v.x - b.base.x))) * b.dir.y = 0 := by linear_combination hv2 - (v.x - b.base.x) * h2
        rcases mul_eq_zero.1 this with h' | h'
        · linarith
        · exact absurd h' hb
      have hx : (b.base.y - m2 * b.base.x - (a.base.y - m1 * a.base.x)) / (m1 - m2) = v.x := by
        rw [div_eq_iff hm']
        linear_combination y1 - y2
      have hy : a.base.y - m1 * a.base.x + v.x * m1 = v.y := by linear_combination -y1
      rw [hx, hy] at h
      rw [if_neg (by rintro (h' | h' | h' | h') <;> linarith)] at h
      have := congrArg V.x h
      simp only [farAway] at this
      linarith
  · exact onBoth_unique hc h hv

theorem cross_swap (a b : V) : cross b a = -cross a b := by
  unfold cross
  ring

/-- cut points are on both lines, whose directions differ; those in the box are found -/
theorem cutPoint_spec (S : V) {a b : Plane} (ha0 : a.dir ≠ ⟨0, 0⟩) (hb0 : b.dir ≠ ⟨0, 0⟩) :
    (cutPoint S a b ≠ farAway → cross a.dir b.dir ≠ 0 ∧ OnBoth a b (cutPoint S a b)) ∧
    (∀ v, cross a.dir b.dir ≠ 0 → OnBoth a b v → InBox S v → cutPoint S a b = v) := by
  unfold cutPoint
  by_cases ha : a.dir.y = 0
  · rw [if_pos ha]
    by_cases hb : b.dir.y = 0
    · rw [if_pos hb]
      refine ⟨fun h => absurd rfl h, fun v hc => absurd ?_ hc⟩
      unfold cross
      rw [ha, hb]
      ring
    · rw [if_neg hb]
      obtain ⟨h1, h2⟩ := cutPoint'_spec S (a := b) (b := a) hb ha0
      refine ⟨fun h => ?_, fun v hc hv => h2 v (by rw [cross_swap, neg_ne_zero]; exact hc) hv.symm⟩
      obtain ⟨h3, h4⟩ := h1 h
      rw [cross_swap, neg_ne_zero] at h3
      exact ⟨h3, h4.symm⟩
  · rw [if_neg ha]
    exact cutPoint'_spec S ha hb0

/-! ## Candidates -/

/-- position on line `e` -/
def pos (e : Plane) (v : V) : ℚ := (v.sub e.base).dot (turn e.dir)

/-- what the loop finds -/
structure Best (S : V) (e : Plane) (fs : List Plane) (r : V × V) : Prop where
  left : (r.1 = farAway ∧ ∀ f ∈ fs, ¬ f.dir.dot (turn e.dir) > 0 → cutPoint S e f = farAway) ∨
    ((∃ f ∈ fs, ¬ f.dir.dot (turn e.dir) > 0 ∧ cutPoint S e f ≠ farAway ∧ r.1 = cutPoint S e f) ∧ ∀ f ∈ fs, ¬ f.dir.dot (turn e.dir) > 0 → cutPoint S e f ≠ farAway → pos e r.1 ≤ pos e (cutPoint S e f))
  right : (r.2 = farAway ∧ ∀ f ∈ fs, f.dir.dot (turn e.dir) > 0 → cutPoint S e f = farAway) ∨
    ((∃ f ∈ fs, f.dir.dot (turn e.dir) > 0 ∧ cutPoint S e f ≠ farAway ∧ r.2 = cutPoint S e f) ∧ ∀ f ∈ fs, f.dir.dot (turn e.dir) > 0 → cutPoint S e f ≠ farAway → pos e (cutPoint S e f) ≤ pos e r.2)

theorem best (S : V) (e : Plane) (fs : List Plane) : Best S e fs (fs.foldl (cutStep S e) (farAway, farAway)) := by
  induction fs using List.reverseRecOn with
  | nil => exact ⟨Or.inl ⟨rfl, by simp⟩, Or.inl ⟨rfl, by simp⟩⟩
  | append_singleton fs f ih =>
    rw [List.foldl_append]
    simp only [List.foldl_cons, List.foldl_nil]
    generalize fs.foldl (cutStep S e) (farAway, farAway) = r at *
    obtain ⟨hl, hr⟩ := ih
    have mem : ∀ g, g ∈ fs ++ [f] ↔ g ∈ fs ∨ g = f := fun g => by rw [List.mem_append, List.mem_singleton]
    unfold cutStep
    dsimp only
    by_cases hd : f.dir.dot (turn e.dir) > 0
    · rw [if_pos hd]
      have left : (r.1 = farAway ∧ ∀ g ∈ fs ++ [f], ¬ g.dir.dot (turn e.dir) > 0 → cutPoint S e g = farAway) ∨
          ((∃ g ∈ fs ++ [f], ¬ g.dir.dot (turn e.dir) > 0 ∧ cutPoint S e g ≠ farAway ∧ r.1 = cutPoint S e g) ∧
            ∀ g ∈ fs ++ [f], ¬ g.dir.dot (turn e.dir) > 0 → cutPoint S e g ≠ farAway → pos e r.1 ≤ pos e (cutPoint S e g)) := by
        rcases hl with ⟨h1, h2⟩ | ⟨⟨g, hg, h1⟩, h2⟩
        · refine Or.inl ⟨h1, fun g hg hn => ?_⟩
          rcases (mem g).1 hg with hg | rfl
          · exact h2 g hg hn
          · exact absurd hd hn
        · refine Or.inr ⟨⟨g, (mem g).2 (Or.inl hg), h1⟩, fun g hg hn => ?_⟩
          rcases (mem g).1 hg with hg | rfl
          · exact h2 g hg hn
          · exact absurd hd hn
      split
      · next hc =>
        refine ⟨left, Or.inr ⟨⟨f, (mem f).2 (Or.inr rfl), hd, hc.1, rfl⟩, fun g hg hg1 hg2 => ?_⟩⟩
        rcases (mem g).1 hg with hg | rfl
        · rcases hr with ⟨h1, h2⟩ | ⟨⟨k, -, -, h5, h6⟩, h2⟩
          · exact absurd (h2 g hg hg1) hg2
          · have h3 := h2 g hg hg1 hg2
            rcases hc.2 with h4 | h4
            · exact absurd (h6.symm.trans h4) h5
            · exact h3.trans (le_of_lt h4)
        · exact le_refl _
      · next hc =>
        refine ⟨left, ?_⟩
        rcases hr with ⟨h1, h2⟩ | ⟨⟨g, hg, h1⟩, h2⟩
        · refine Or.inl ⟨h1, fun g hg hn => ?_⟩
          rcases (mem g).1 hg with hg | rfl
          · exact h2 g hg hn
          · by_contra h3
            exact hc ⟨h3, Or.inl h1⟩
        · refine Or.inr ⟨⟨g, (mem g).2 (Or.inl hg), h1⟩, fun g hg hg1 hg2 => ?_⟩
          rcases (mem g).1 hg with hg | rfl
          · exact h2 g hg hg1 hg2
          · exact le_of_not_gt fun h3 => hc ⟨hg2, Or.inr h3⟩
    · rw [if_neg hd]
      have right : (r.2 = farAway ∧ ∀ g ∈ fs ++ [f], g.dir.dot (turn e.dir) > 0 → cutPoint S e g = farAway) ∨
          ((∃ g ∈ fs ++ [f], g.dir.dot (turn e.dir) > 0 ∧ cutPoint S e g ≠ farAway ∧ r.2 = cutPoint S e g) ∧
            ∀ g ∈ fs ++ [f], g.dir.dot (turn e.dir) > 0 → cutPoint S e g ≠ farAway → pos e (cutPoint S e g) ≤ pos e r.2) := by
        rcases hr with ⟨h1, h2⟩ | ⟨⟨g, hg, h1⟩, h2⟩
        · refine Or.inl ⟨h1, fun g hg hn => ?_⟩
          rcases (mem g).1 hg with hg | rfl
          · exact h2 g hg hn
          · exact absurd hn hd
        · refine Or.inr ⟨⟨g, (mem g).2 (Or.inl hg), h1⟩, fun g hg hn => ?_⟩
          rcases (mem g).1 hg with hg | rfl
          · exact h2 g hg hn
          · exact absurd hn hd
      split
      · next hc =>
        refine ⟨Or.inr ⟨⟨f, (mem f).2 (Or.inr rfl), hd, hc.1, rfl⟩, fun g hg hg1 hg2 => ?_⟩, right⟩
        rcases (mem g).1 hg with hg | rfl
        · rcases hl with ⟨h1, h2⟩ | ⟨⟨k, -, -, h5, h6⟩, h2⟩
          · exact absurd (h2 g hg hg1) hg2
          · have h3 := h2 g hg hg1 hg2
            rcases hc.2 with h4 | h4
            · exact absurd (h6.symm.trans h4) h5
            · exact le_trans (le_of_lt h4) h3
        · exact le_refl _
      · next hc =>
        refine ⟨?_, right⟩
        rcases hl with ⟨h1, h2⟩ | ⟨⟨g, hg, h1⟩, h2⟩
        · refine Or.inl ⟨h1, fun g hg hn => ?_⟩
          rcases (mem g).1 hg with hg | rfl
          · exact h2 g hg hn
          · by_contra h3
            exact hc ⟨h3, Or.inl h1⟩
        · refine Or.inr ⟨⟨g, (mem g).2 (Or.inl hg), h1⟩, fun g hg hg1 hg2 => ?_⟩
          rcases (mem g).1 hg with hg | rfl
          · exact h2 g hg hg1 hg2
          · exact le_of_not_gt fun h3 => hc ⟨hg2, Or.inr h3⟩

/-! ## Edges -/

theorem pos_ray (e : Plane) (q : V) (s : ℚ) : pos e (ray q (turn e.dir) s) = pos e q + s * e.dir.dot e.dir := by
  simp only [pos, ray, V.add, V.smul, V.sub, V.dot, turn]
  ring

theorem dir_pos {d : V} (h : d ≠ ⟨0, 0⟩) : 0 < d.dot d := by
  simp only [V.dot]
  by_cases hx : d.x = 0
  · have hy : d.y ≠ 0 := fun hy => h (V.ext hx hy)
    have := mul_self_pos.2 hy
    rw [hx]
    linarith
  · have := mul_self_pos.2 hx
    have := mul_self_nonneg d.y
    linarith

theorem turn_ne {d : V} (h : d ≠ ⟨0, 0⟩) : turn d ≠ ⟨0, 0⟩ := by
  intro e
  have h1 := congrArg V.x e
  have h2 := congrArg V.y e
  simp only [turn] at h1 h2
  exact h (V.ext (by linarith) h1)

theorem neg_ne {d : V} (h : d ≠ ⟨0, 0⟩) : V.smul (-1) d ≠ ⟨0, 0⟩ := by
  intro e
  have h1 := congrArg V.x e
  have h2 := congrArg V.y e
  simp only [V.smul] at h1 h2
  exact h (V.ext (by linarith) (by linarith))

/-- points on a line with equal positions are equal -/
theorem pos_inj {e : Plane} (h : e.dir ≠ ⟨0, 0⟩) {v w : V} (hv : e.val v = 0) (hw : e.val w = 0) (hp : pos e v = pos e w) : v = w := by
  have hd := dir_pos h
  simp only [Plane.val, pos, V.sub, V.dot, turn] at *
  refine V.ext ?_ ?_
  · have : (v.x - w.x) * (e.dir.x * e.dir.x + e.dir.y * e.dir.y) = 0 := by linear_combination e.dir.x * (hv - hw) + e.dir.y * hp
    rcases mul_eq_zero.1 this with h | h <;> linarith
  · have : (v.y - w.y) * (e.dir.x * e.dir.x + e.dir.y * e.dir.y) = 0 := by linear_combination e.dir.y * (hv - hw) - e.dir.x * hp
    rcases mul_eq_zero.1 this with h | h <;> linarith

/-- values along a line depend on the position -/
theorem val_line {e : Plane} {v w : V} (hv : e.val v = 0) (hw : e.val w = 0) (n : V) : (n.dot v - n.dot w) * e.dir.dot e.dir = (pos e v - pos e w) * n.dot (turn e.dir) := by
  simp only [Plane.val, pos, V.sub, V.dot, turn] at *
  linear_combination (n.x * e.dir.x + n.y * e.dir.y) * (hv - hw)

/-- a linear function is between its values at the ends -/
theorem between {e : Plane} (h : e.dir ≠ ⟨0, 0⟩) {a q b : V} (ha : e.val a = 0) (hq : e.val q = 0) (hb : e.val b = 0) (h1 : pos e a ≤ pos e q) (h2 : pos e q ≤ pos e b) (n : V) : n.dot a ≤ n.dot q ∨ n.dot b ≤ n.dot q := by
  have hd := dir_pos h
  have e1 := val_line ha hq n
  have e2 := val_line hb hq n
  rcases le_total 0 (n.dot (turn e.dir)) with ht | ht
  · left
    have : (n.dot a - n.dot q) * e.dir.dot e.dir ≤ 0 := by rw [e1]; exact mul_nonpos_of_nonpos_of_nonneg (by linarith) ht
    by_contra hh
    have := mul_pos (show 0 < n.dot a - n.dot q by linarith) hd
    linarith
  · right
    have : (n.dot b - n.dot q) * e.dir.dot e.dir ≤ 0 := by rw [e2]; exact mul_nonpos_of_nonneg_of_nonpos (by linarith) ht
    by_contra hh
    have := mul_pos (show 0 < n.dot b - n.dot q by linarith) hd
    linarith

theorem val_dot (e : Plane) (v : V) : e.val v = e.dir.dot v - e.dir.dot e.base := by
  simp only [Plane.val, V.sub, V.dot]
  ring

/-- a plane which contains a point strictly has a direction -/
theorem dir_ne {L : List Plane} {w : V} (h : Open L w) {e : Plane} (he : e ∈ L) : e.dir ≠ ⟨0, 0⟩ := by
  intro hd
  have := h e he
  simp [Plane.val, hd, V.dot] at this

/-- the cut points of a line bound its part of the polytope, and belong to it -/
theorem edge {S w : V} {L : List Plane} (hw : Open L w) (hB : Bounded S L) {i : Nat} {e : Plane} (hi : L[i]? = some e) {q : V} (hq : Closed L q) (h0 : e.val q = 0) :
    let r := cutPair S L i e
    (e.val r.1 = 0 ∧ Closed L r.1 ∧ pos e q ≤ pos e r.1) ∧ (e.val r.2 = 0 ∧ Closed L r.2 ∧ pos e r.2 ≤ pos e q) := by
  have he : e ∈ L := List.mem_of_getElem? hi
  have hd := dir_ne hw he
  have hp := dir_pos hd
  have hfs : ∀ f, f ∈ L.eraseIdx i → f ∈ L := fun f hf => List.mem_of_mem_eraseIdx hf
  have hback : ∀ f ∈ L, f.dir.dot (turn e.dir) ≠ 0 → f ∈ L.eraseIdx i := by
    intro f hf hn
    obtain ⟨j, hj⟩ := List.mem_iff_getElem?.1 hf
    refine List.mem_eraseIdx_iff_getElem?.2 ⟨j, fun hji => ?_, hj⟩
    subst hji
    rw [hi] at hj
    cases hj
    exact hn (by rw [dot_comm]; exact turn_dot _)
  obtain ⟨hl, hr⟩ := best S e (L.eraseIdx i)
  have cr : ∀ f : Plane, cross e.dir f.dir = -f.dir.dot (turn e.dir) := by
    intro f
    rw [dot_turn, cross_swap]
  intro r
  constructor
  · obtain ⟨s, hs, f, hf, hfd, hfv, hc⟩ := exit hq (ray_hits hB hq (turn_ne hd))
    rw [dot_comm] at hfd
    have hev : e.val (ray q (turn e.dir) s) = 0 := by rw [val_ray, h0, turn_dot]; ring
    have hcut : cutPoint S e f = ray q (turn e.dir) s := (cutPoint_spec S hd (dir_ne hw hf)).2 _ (by rw [cr, neg_ne_zero]; exact ne_of_lt hfd) ⟨hev, hfv⟩ (hB _ hc)
    have hne : cutPoint S e f ≠ farAway := by
      intro h
      rw [hcut] at h
      have := (hB _ hc).1
      rw [h] at this
      simp only [farAway] at this
      linarith
    have hfm := hback f hf (ne_of_lt hfd)
    have hge : pos e q ≤ pos e (ray q (turn e.dir) s) := by rw [pos_ray]; have := mul_nonneg hs (le_of_lt hp); linarith
    rcases hl with ⟨-, h2⟩ | ⟨⟨g, hg, hg1, hg2, hg3⟩, h2⟩
    · exact absurd (h2 f hfm (by linarith)) hne
    · have hle := h2 f hfm (by linarith) hne
      rw [hcut] at hle
      obtain ⟨hgc, hge1, hge2⟩ := (cutPoint_spec S hd (dir_ne hw (hfs g hg))).1 hg2
      have hg4 : g.dir.dot (turn e.dir) < 0 := lt_of_le_of_ne (le_of_not_gt hg1) (by rw [cr, neg_ne_zero] at hgc; exact hgc)
      rw [← hg3] at hge1 hge2
      -- the other candidate isn't nearer, as the ray's end is inside
      have hin := hc g (hfs g hg)
      have e1 := val_line hge1 hev g.dir
      have e2 : g.dir.dot r.1 - g.dir.dot (ray q (turn e.dir) s) = -g.val (ray q (turn e.dir) s) := by
        have a := val_dot g r.1
        have b := val_dot g (ray q (turn e.dir) s)
        have hge2' : g.val r.1 = 0 := hge2
        linarith
      have hge3 : pos e (ray q (turn e.dir) s) ≤ pos e r.1 := by
        by_contra hlt
        have h5 : 0 < (pos e r.1 - pos e (ray q (turn e.dir) s)) * g.dir.dot (turn e.dir) := mul_pos_of_neg_of_neg (by linarith) hg4
        have h6 : (g.dir.dot r.1 - g.dir.dot (ray q (turn e.dir) s)) * e.dir.dot e.dir ≤ 0 := mul_nonpos_of_nonpos_of_nonneg (by rw [e2]; linarith) (le_of_lt hp)
        have e1' : (g.dir.dot r.1 - g.dir.dot (ray q (turn e.dir) s)) * e.dir.dot e.dir = (pos e r.1 - pos e (ray q (turn e.dir) s)) * g.dir.dot (turn e.dir) := e1
        linarith
      have : r.1 = ray q (turn e.dir) s := pos_inj hd hge1 hev (le_antisymm hle hge3)
      rw [this]
      exact ⟨hev, hc, hge⟩
  · obtain ⟨s, hs, f, hf, hfd, hfv, hc⟩ := exit hq (ray_hits hB hq (neg_ne (turn_ne hd)))
    have hray : ray q (V.smul (-1) (turn e.dir)) s = ray q (turn e.dir) (-s) := by
      simp only [ray, V.add, V.smul, V.mk.injEq]
      constructor <;> ring
    rw [hray] at hfv hc
    have hfd' : 0 < f.dir.dot (turn e.dir) := by
      simp only [V.smul, V.dot, turn] at hfd ⊢
      linarith
    have hev : e.val (ray q (turn e.dir) (-s)) = 0 := by rw [val_ray, h0, turn_dot]; ring
    have hcut : cutPoint S e f = ray q (turn e.dir) (-s) := (cutPoint_spec S hd (dir_ne hw hf)).2 _ (by rw [cr, neg_ne_zero]; exact ne_of_gt hfd') ⟨hev, hfv⟩ (hB _ hc)
    have hne : cutPoint S e f ≠ farAway := by
      intro h
      rw [hcut] at h
      have := (hB _ hc).1
      rw [h] at this
      simp only [farAway] at this
      linarith
    have hfm := hback f hf (ne_of_gt hfd')
    have hge : pos e (ray q (turn e.dir) (-s)) ≤ pos e q := by rw [pos_ray]; have := mul_nonneg hs (le_of_lt hp); linarith
    rcases hr with ⟨-, h2⟩ | ⟨⟨g, hg, hg1, hg2, hg3⟩, h2⟩
    · exact absurd (h2 f hfm hfd') hne
    · have hle := h2 f hfm hfd' hne
      rw [hcut] at hle
      obtain ⟨hgc, hge1, hge2⟩ := (cutPoint_spec S hd (dir_ne hw (hfs g hg))).1 hg2
      rw [← hg3] at hge1 hge2
      have hin := hc g (hfs g hg)
      have e1 := val_line hge1 hev g.dir
      have e2 : g.dir.dot r.2 - g.dir.dot (ray q (turn e.dir) (-s)) = -g.val (ray q (turn e.dir) (-s)) := by
        have a := val_dot g r.2
        have b := val_dot g (ray q (turn e.dir) (-s))
        have hge2' : g.val r.2 = 0 := hge2
        linarith
      have hge3 : pos e r.2 ≤ pos e (ray q (turn e.dir) (-s)) := by
        by_contra hlt
        have h5 : 0 < (pos e r.2 - pos e (ray q (turn e.dir) (-s))) * g.dir.dot (turn e.dir) := mul_pos (by linarith) hg1
        have h6 : (g.dir.dot r.2 - g.dir.dot (ray q (turn e.dir) (-s))) * e.dir.dot e.dir ≤ 0 := mul_nonpos_of_nonpos_of_nonneg (by rw [e2]; linarith) (le_of_lt hp)
        have e1' : (g.dir.dot r.2 - g.dir.dot (ray q (turn e.dir) (-s))) * e.dir.dot e.dir = (pos e r.2 - pos e (ray q (turn e.dir) (-s))) * g.dir.dot (turn e.dir) := e1
        linarith
      have : r.2 = ray q (turn e.dir) (-s) := pos_inj hd hge1 hev (le_antisymm hge3 hle)
      rw [this]
      exact ⟨hev, hc, hge⟩

theorem mem_cutPoints {S : V} {L : List Plane} {i : Nat} {e : Plane} (hi : L[i]? = some e) : cutPair S L i e ∈ cutPoints S L := by
  unfold cutPoints
  refine List.mem_map.2 ⟨(e, i), ?_, rfl⟩
  rw [List.mem_zipIdx_iff_getElem?]
  exact hi

/-- the polytope is in the convex hull of its cut points: no linear function has smaller values inside -/
theorem hull {S w : V} {L : List Plane} (hw : Open L w) (hB : Bounded S L) {p : V} (hp : Closed L p) (n : V) : ∃ v ∈ cutPoints S L, n.dot v.1 ≤ n.dot p ∨ n.dot v.2 ≤ n.dot p := by
  obtain ⟨u, hu, hun⟩ : ∃ u : V, u ≠ ⟨0, 0⟩ ∧ n.dot u = 0 := by
    by_cases hn : n = ⟨0, 0⟩
    · refine ⟨⟨1, 0⟩, ?_, ?_⟩
      · intro h
        have := congrArg V.x h
        simp at this
      · rw [hn]; simp [V.dot]
    · exact ⟨turn n, turn_ne hn, by rw [dot_comm]; exact turn_dot n⟩
  obtain ⟨s, -, e, he, -, hev, hc⟩ := exit hp (ray_hits hB hp hu)
  obtain ⟨i, hi⟩ := List.mem_iff_getElem?.1 he
  obtain ⟨⟨a1, -, a3⟩, ⟨b1, -, b3⟩⟩ := edge hw hB hi hc hev
  have hn : n.dot (ray p u s) = n.dot p := by
    have : n.dot (ray p u s) = n.dot p + s * n.dot u := by simp only [ray, V.add, V.smul, V.dot]; ring
    rw [this, hun]
    ring
  refine ⟨_, mem_cutPoints hi, ?_⟩
  rw [← hn]
  exact (between (dir_ne hw he) b1 hev a1 b3 a3 n).symm

end LGD.Mesh
