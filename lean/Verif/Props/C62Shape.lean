import Verif.Props.C62
import Verif.Mesh.ShapeModel

/-!
# C62: shapes of ConvexPolytopes
-/

namespace LGD.C62
open LGD.Mesh

/-! ## Angles -/

theorem unit {a b : ℝ} (h : 0 < a * a + b * b) :
    let r := Real.sqrt (a * a + b * b)
    0 < r ∧ (a / r) * (a / r) + (b / r) * (b / r) = 1 := by
  intro r
  have hr : 0 < r := Real.sqrt_pos.2 h
  have hs : r * r = a * a + b * b := Real.mul_self_sqrt (le_of_lt h)
  refine ⟨hr, ?_⟩
  field_simp
  nlinarith [hs]

theorem angle_eq {d e : V} (hd : d ≠ ⟨0, 0⟩) (he : e ≠ ⟨0, 0⟩) (h : angle d = angle e) : cross d e = 0 ∧ 0 < d.dot e := by
  have hd0 := dir_pos hd
  have he0 := dir_pos he
  have cd : (0 : ℝ) < (d.x : ℝ) * d.x + (d.y : ℝ) * d.y := by
    have : ((0 : ℚ) : ℝ) < ((d.dot d : ℚ) : ℝ) := by exact_mod_cast hd0
    simpa [V.dot] using this
  have ce : (0 : ℝ) < (e.x : ℝ) * e.x + (e.y : ℝ) * e.y := by
    have : ((0 : ℚ) : ℝ) < ((e.dot e : ℚ) : ℝ) := by exact_mod_cast he0
    simpa [V.dot] using this
  obtain ⟨rd, ud⟩ := unit cd
  obtain ⟨re, ue⟩ := unit ce
  have xd : (d.x < 0 ↔ (d.x : ℝ) < 0) := by exact_mod_cast Iff.rfl
  have xe : (e.x < 0 ↔ (e.x : ℝ) < 0) := by exact_mod_cast Iff.rfl
  unfold angle at h
  dsimp only at h
  -- cosine and sine
  generalize hsd : Real.sqrt ((d.x : ℝ) * d.x + (d.y : ℝ) * d.y) = r at *
  generalize hse : Real.sqrt ((e.x : ℝ) * e.x + (e.y : ℝ) * e.y) = t at *
  obtain ⟨a, ha⟩ : ∃ a, (d.x : ℝ) / r = a := ⟨_, rfl⟩
  obtain ⟨b, hb⟩ : ∃ b, (d.y : ℝ) / r = b := ⟨_, rfl⟩
  obtain ⟨a', ha'⟩ : ∃ a, (e.x : ℝ) / t = a := ⟨_, rfl⟩
  obtain ⟨b', hb'⟩ : ∃ b, (e.y : ℝ) / t = b := ⟨_, rfl⟩
  rw [ha, hb] at ud
  rw [ha', hb'] at ue
  rw [hb, hb'] at h
  have eax : (d.x : ℝ) = a * r := by rw [← ha]; field_simp
  have eay : (d.y : ℝ) = b * r := by rw [← hb]; field_simp
  have ebx : (e.x : ℝ) = a' * t := by rw [← ha']; field_simp
  have eby : (e.y : ℝ) = b' * t := by rw [← hb']; field_simp
  have sd : ((d.x : ℝ) < 0 ↔ a < 0) := by
    rw [eax]
    constructor
    · intro hn
      by_contra hc
      have := mul_nonneg (le_of_not_gt hc) (le_of_lt rd)
      linarith
    · exact fun hn => mul_neg_of_neg_of_pos hn rd
  have se : ((e.x : ℝ) < 0 ↔ a' < 0) := by
    rw [ebx]
    constructor
    · intro hn
      by_contra hc
      have := mul_nonneg (le_of_not_gt hc) (le_of_lt re)
      linarith
    · exact fun hn => mul_neg_of_neg_of_pos hn re
  rw [if_congr (xd.trans sd) rfl rfl, if_congr (xe.trans se) rfl rfl] at h
  have bb : -1 ≤ b ∧ b ≤ 1 := ⟨by nlinarith [mul_self_nonneg a], by nlinarith [mul_self_nonneg a]⟩
  have bb' : -1 ≤ b' ∧ b' ≤ 1 := ⟨by nlinarith [mul_self_nonneg a'], by nlinarith [mul_self_nonneg a']⟩
  have hb1 := Real.arcsin_le_pi_div_two b
  have hb1' := Real.arcsin_le_pi_div_two b'
  have noone : ∀ x y : ℝ, x < 0 → x * x + y * y = 1 → y ≤ 1 → Real.arcsin y = Real.pi / 2 → False := by
    intro x y hx hu hy hp
    have := Real.arcsin_eq_pi_div_two.1 hp
    have : y = 1 := le_antisymm hy this
    subst this
    nlinarith [mul_pos_of_neg_of_neg hx hx]
  have same : b = b' ∧ a = a' := by
    by_cases hn : a < 0
    · rw [if_pos hn] at h
      by_cases hn' : a' < 0
      · rw [if_pos hn'] at h
        have hbb : b = b' := (Real.arcsin_inj bb.1 bb.2 bb'.1 bb'.2).1 (by linarith)
        refine ⟨hbb, ?_⟩
        subst hbb
        have : (a - a') * (a + a') = 0 := by linear_combination ud - ue
        rcases mul_eq_zero.1 this with h' | h' <;> linarith
      · rw [if_neg hn'] at h
        exact (noone a b hn ud bb.2 (by linarith)).elim
    · rw [if_neg hn] at h
      by_cases hn' : a' < 0
      · rw [if_pos hn'] at h
        exact (noone a' b' hn' ue bb'.2 (by linarith)).elim
      · rw [if_neg hn'] at h
        have hbb : b = b' := (Real.arcsin_inj bb.1 bb.2 bb'.1 bb'.2).1 h
        refine ⟨hbb, ?_⟩
        subst hbb
        have h2 : (a - a') * (a + a') = 0 := by linear_combination ud - ue
        rcases mul_eq_zero.1 h2 with h' | h'
        · linarith
        · have := le_of_not_gt hn
          have := le_of_not_gt hn'
          linarith
  obtain ⟨rfl, rfl⟩ := same
  constructor
  · have : ((cross d e : ℚ) : ℝ) = 0 := by
      unfold cross
      push_cast
      rw [eax, eay, ebx, eby]
      ring
    exact_mod_cast this
  · have : (0 : ℝ) < ((d.dot e : ℚ) : ℝ) := by
      unfold V.dot
      push_cast
      rw [eax, eay, ebx, eby]
      have : a * r * (a * t) + b * r * (b * t) = r * t := by linear_combination (r * t) * ud
      rw [this]
      exact mul_pos rd re
    exact_mod_cast this

/-- polar angle, counted from the negative y-axis -/
def Polar (d : V) (t : ℝ) : Prop := (-(Real.pi / 2) ≤ t ∧ t < 3 * Real.pi / 2) ∧ ∃ r : ℝ, 0 < r ∧ (d.x : ℝ) = r * Real.cos t ∧ (d.y : ℝ) = r * Real.sin t

theorem angle_polar {d : V} (hd : d ≠ ⟨0, 0⟩) : Polar d (angle d) := by
  have hd0 := dir_pos hd
  have cd : (0 : ℝ) < (d.x : ℝ) * d.x + (d.y : ℝ) * d.y := by
    have : ((0 : ℚ) : ℝ) < ((d.dot d : ℚ) : ℝ) := by exact_mod_cast hd0
    simpa [V.dot] using this
  obtain ⟨rd, ud⟩ := unit cd
  have xd : (d.x < 0 ↔ (d.x : ℝ) < 0) := by exact_mod_cast Iff.rfl
  unfold angle
  dsimp only
  generalize hsd : Real.sqrt ((d.x : ℝ) * d.x + (d.y : ℝ) * d.y) = r at *
  obtain ⟨a, ha⟩ : ∃ a, (d.x : ℝ) / r = a := ⟨_, rfl⟩
  obtain ⟨b, hb⟩ : ∃ b, (d.y : ℝ) / r = b := ⟨_, rfl⟩
  rw [ha, hb] at ud
  rw [hb]
  have eax : (d.x : ℝ) = r * a := by rw [← ha]; field_simp
  have eay : (d.y : ℝ) = r * b := by rw [← hb]; field_simp
  have bb : -1 ≤ b ∧ b ≤ 1 := ⟨by nlinarith [mul_self_nonneg a], by nlinarith [mul_self_nonneg a]⟩
  have hcos : Real.cos (Real.arcsin b) = |a| := by
    rw [Real.cos_arcsin, show 1 - b ^ 2 = a ^ 2 by linear_combination -ud, Real.sqrt_sq_eq_abs]
  have hsin := Real.sin_arcsin bb.1 bb.2
  have l1 := Real.arcsin_le_pi_div_two b
  have l2 := Real.neg_pi_div_two_le_arcsin b
  have hpi := Real.pi_pos
  by_cases hn : d.x < 0
  · rw [if_pos hn]
    have ha0 : a < 0 := by
      have := xd.1 hn
      rw [eax] at this
      by_contra hc
      have := mul_nonneg (le_of_lt rd) (le_of_not_gt hc)
      linarith
    have hb2 : Real.arcsin b ≠ -(Real.pi / 2) := by
      intro h
      have := Real.arcsin_eq_neg_pi_div_two.1 h
      have : b = -1 := le_antisymm this bb.1
      subst this
      nlinarith [mul_pos_of_neg_of_neg ha0 ha0]
    have l3 := lt_of_le_of_ne l2 (Ne.symm hb2)
    refine ⟨⟨by linarith, by linarith⟩, r, rd, ?_, ?_⟩
    · rw [Real.cos_pi_sub, hcos, abs_of_neg ha0, eax]
      ring
    · rw [Real.sin_pi_sub, hsin, eay]
  · rw [if_neg hn]
    have ha0 : 0 ≤ a := by
      have h0 : ¬ (d.x : ℝ) < 0 := fun h => hn (xd.2 h)
      rw [eax] at h0
      by_contra hc
      exact h0 (mul_neg_of_pos_of_neg rd (lt_of_not_ge hc))
    refine ⟨⟨l2, by linarith⟩, r, rd, ?_, ?_⟩
    · rw [hcos, abs_of_nonneg ha0, eax]
    · rw [hsin, eay]

/-! ## Maps -/

def Sorted (l : List (ℝ × V)) : Prop := l.Pairwise fun a b => a.1 < b.1

theorem mem_put {k : ℝ} {v : V} {l : List (ℝ × V)} (hl : Sorted l) (x : ℝ × V) : x ∈ put k v l ↔ x = (k, v) ∨ (x.1 ≠ k ∧ x ∈ l) := by
  induction l with
  | nil => simp [put]
  | cons e l ih =>
    obtain ⟨h1, h2⟩ := List.pairwise_cons.1 hl
    unfold put
    split
    · next hk =>
      constructor
      · intro hx
        rcases List.mem_cons.1 hx with rfl | hx
        · exact Or.inl rfl
        · refine Or.inr ⟨?_, hx⟩
          rcases List.mem_cons.1 hx with rfl | hx
          · exact ne_of_gt hk
          · exact ne_of_gt (hk.trans (h1 x hx))
      · rintro (rfl | ⟨-, hx⟩)
        · simp
        · exact List.mem_cons_of_mem _ hx
    · next hk =>
      split
      · next hk' =>
        rw [List.mem_cons, ih h2, List.mem_cons]
        constructor
        · rintro (rfl | rfl | ⟨hx, hm⟩)
          · exact Or.inr ⟨ne_of_lt hk', Or.inl rfl⟩
          · exact Or.inl rfl
          · exact Or.inr ⟨hx, Or.inr hm⟩
        · rintro (rfl | ⟨hx, rfl | hm⟩)
          · exact Or.inr (Or.inl rfl)
          · exact Or.inl rfl
          · exact Or.inr (Or.inr ⟨hx, hm⟩)
      · next hk' =>
        have hek : e.1 = k := le_antisymm (le_of_not_gt hk) (le_of_not_gt hk')
        rw [List.mem_cons, List.mem_cons]
        constructor
        · rintro (rfl | hx)
          · exact Or.inl rfl
          · exact Or.inr ⟨by rw [← hek]; exact ne_of_gt (h1 x hx), Or.inr hx⟩
        · rintro (rfl | ⟨hx, rfl | hm⟩)
          · exact Or.inl rfl
          · exact absurd hek hx
          · exact Or.inr hm

theorem put_sorted {k : ℝ} {v : V} {l : List (ℝ × V)} (hl : Sorted l) : Sorted (put k v l) := by
  induction l with
  | nil => exact List.pairwise_singleton _ _
  | cons e l ih =>
    obtain ⟨h1, h2⟩ := List.pairwise_cons.1 hl
    unfold put
    split
    · next hk =>
      refine List.pairwise_cons.2 ⟨fun x hx => ?_, hl⟩
      rcases List.mem_cons.1 hx with rfl | hx
      · exact hk
      · exact hk.trans (h1 x hx)
    · next hk =>
      split
      · next hk' =>
        refine List.pairwise_cons.2 ⟨fun x hx => ?_, ih h2⟩
        rcases (mem_put h2 x).1 hx with rfl | ⟨-, hx⟩
        · exact hk'
        · exact h1 x hx
      · next hk' =>
        have hek : e.1 = k := le_antisymm (le_of_not_gt hk) (le_of_not_gt hk')
        refine List.pairwise_cons.2 ⟨fun x hx => ?_, h2⟩
        show k < x.1
        rw [← hek]
        exact h1 x hx

theorem puts (f : V → ℝ) (l : List V) (hf : ∀ a ∈ l, ∀ b ∈ l, f a = f b → a = b) :
    Sorted (l.foldl (fun m v => put (f v) v m) []) ∧ ∀ x, x ∈ l.foldl (fun m v => put (f v) v m) [] ↔ x.1 = f x.2 ∧ x.2 ∈ l := by
  induction l using List.reverseRecOn with
  | nil => exact ⟨List.Pairwise.nil, by simp⟩
  | append_singleton l a ih =>
    rw [List.foldl_append]
    simp only [List.foldl_cons, List.foldl_nil]
    obtain ⟨i1, i2⟩ := ih fun x hx y hy => hf x (List.mem_append_left _ hx) y (List.mem_append_left _ hy)
    refine ⟨put_sorted i1, fun x => ?_⟩
    rw [mem_put i1, i2, List.mem_append, List.mem_singleton]
    constructor
    · rintro (rfl | ⟨-, h1, h2⟩)
      · exact ⟨rfl, Or.inr rfl⟩
      · exact ⟨h1, Or.inl h2⟩
    · rintro ⟨h1, h2⟩
      by_cases hk : x.1 = f a
      · left
        have : x.2 = a := by
          rcases h2 with h2 | h2
          · exact hf x.2 (List.mem_append_left _ h2) a (by simp) (h1.symm.trans hk)
          · exact h2
        exact Prod.ext hk this
      · right
        refine ⟨hk, h1, h2.resolve_right fun e => hk (by rw [h1, e])⟩

/-! ## Corners -/

theorem Good.corner_ne {S w : V} {es : List Plane} {P : Poly} (h : Good S w es P) {x : V} (hx : x ∈ corners P) : x.sub w ≠ ⟨0, 0⟩ := by
  obtain ⟨-, ⟨e, he, h0⟩, -, -⟩ := h.corner hx
  intro hd
  have h1 := congrArg V.x hd
  have h2 := congrArg V.y hd
  simp only [V.sub] at h1 h2
  have : x = w := V.ext (by linarith) (by linarith)
  rw [this] at h0
  have := h.inner e he
  linarith

/-- corners in the same direction are equal -/
theorem Good.corner_inj {S w : V} {es : List Plane} {P : Poly} (h : Good S w es P) {x y : V} (hx : x ∈ corners P) (hy : y ∈ corners P) (hc : cross (x.sub w) (y.sub w) = 0) (hp : 0 < (x.sub w).dot (y.sub w)) : x = y := by
  have key : ∀ x y : V, x ∈ corners P → y ∈ corners P → ∀ t : ℚ, 0 < t → t < 1 → x.sub w = V.smul t (y.sub w) → False := by
    intro x y hx hy t t0 t1 e
    obtain ⟨-, ⟨f, hf, h0⟩, -, -⟩ := h.corner hx
    have hy := (h.corner hy).1 f hf
    have hw := h.inner f hf
    have e1 := congrArg V.x e
    have e2 := congrArg V.y e
    simp only [V.sub, V.smul] at e1 e2
    have : f.val x = (1 - t) * f.val w + t * f.val y := by
      simp only [Plane.val, V.sub, V.dot]
      linear_combination f.dir.x * e1 + f.dir.y * e2
    have := mul_pos (show 0 < 1 - t by linarith) hw
    have := mul_nonneg (le_of_lt t0) hy
    linarith
  have hdx := dir_pos (h.corner_ne hx)
  have hdy := dir_pos (h.corner_ne hy)
  generalize hdd : (x.sub w).dot (y.sub w) = d at *
  have par : ∀ a b : V, cross a b = 0 → b ≠ ⟨0, 0⟩ → a = V.smul (a.dot b / b.dot b) b := by
    intro a b hab hb
    have hb0 := ne_of_gt (dir_pos hb)
    unfold cross at hab
    refine V.ext ?_ ?_
    · simp only [V.smul]
      rw [div_mul_eq_mul_div, eq_div_iff hb0]
      simp only [V.dot]
      linear_combination b.y * hab
    · simp only [V.smul]
      rw [div_mul_eq_mul_div, eq_div_iff hb0]
      simp only [V.dot]
      linear_combination -b.x * hab
  have p1 := par (x.sub w) (y.sub w) hc (h.corner_ne hy)
  have p2 := par (y.sub w) (x.sub w) (by rw [cross_swap, hc, neg_zero]) (h.corner_ne hx)
  rw [hdd] at p1
  rw [dot_comm, hdd] at p2
  have prod : d * d = (x.sub w).dot (x.sub w) * (y.sub w).dot (y.sub w) := by
    rw [← hdd]
    unfold cross at hc
    simp only [V.dot]
    linear_combination -((x.sub w).x * (y.sub w).y - (x.sub w).y * (y.sub w).x) * hc
  rcases lt_trichotomy d ((y.sub w).dot (y.sub w)) with hlt | heq | hgt
  · exact (key x y hx hy _ (div_pos hp hdy) (by rw [div_lt_one hdy]; exact hlt) p1).elim
  · rw [heq, div_self (ne_of_gt hdy)] at p1
    have e1 := congrArg V.x p1
    have e2 := congrArg V.y p1
    simp only [V.sub, V.smul] at e1 e2
    exact V.ext (by linarith) (by linarith)
  · refine (key y x hy hx _ (div_pos hp hdx) ?_ p2).elim
    rw [div_lt_one hdx]
    by_contra hge
    have := mul_lt_mul' (le_of_not_gt hge) hgt (le_of_lt hdy) hp
    linarith

/-- two points aren't enough -/
theorem Good.three {S w : V} {es : List Plane} {P : Poly} (h : Good S w es P) (a b : V) : ∃ x ∈ corners P, x ≠ a ∧ x ≠ b := by
  by_contra hno
  have hab : ∀ x ∈ corners P, x = a ∨ x = b := by
    intro x hx
    by_contra hn
    exact hno ⟨x, hx, fun e => hn (Or.inl e), fun e => hn (Or.inr e)⟩
  obtain ⟨n, hn0, hn⟩ : ∃ n : V, n ≠ ⟨0, 0⟩ ∧ n.dot a = n.dot b := by
    by_cases e : b.sub a = ⟨0, 0⟩
    · refine ⟨⟨1, 0⟩, ?_, ?_⟩
      · intro h
        have := congrArg V.x h
        simp at this
      · have h1 := congrArg V.x e
        simp only [V.sub] at h1
        simp only [V.dot]
        linarith
    · refine ⟨turn (b.sub a), turn_ne e, ?_⟩
      have := turn_dot (b.sub a)
      simp only [V.dot, V.sub, turn] at this ⊢
      linarith
  have hk : ∀ x ∈ corners P, n.dot x = n.dot a := by
    intro x hx
    rcases hab x hx with rfl | rfl
    · rfl
    · exact hn.symm
  have flat : ∀ p, Closed P.limits p → n.dot p = n.dot a := by
    intro p hp
    obtain ⟨x, hx, h1⟩ := h.hull hp n
    obtain ⟨y, hy, h2⟩ := h.hull hp ⟨-n.x, -n.y⟩
    have e1 := hk x hx
    have e2 := hk y hy
    simp only [V.dot] at *
    linarith
  obtain ⟨s, -, e, he, -, hv, hc⟩ := exit h.inner.closed (ray_hits h.bounded h.inner.closed hn0)
  have f1 := flat _ hc
  have f2 := flat _ h.inner.closed
  have : n.dot (ray w n s) = n.dot w + s * n.dot n := by simp only [ray, V.add, V.smul, V.dot]; ring
  have hs : s = 0 := by
    have : s * n.dot n = 0 := by linarith
    exact (mul_eq_zero.1 this).resolve_right (ne_of_gt (dir_pos hn0))
  subst hs
  rw [val_ray] at hv
  have := h.inner e he
  linarith

/-- **C62, shape.** If the center is an inner point, `getShape()` doesn't throw. It returns all corners, each of them once, at least three, sorted counterclockwise. -/
theorem shape_spec (center S : V) (es : List Plane) (hw : Inner S center) (hes : ∀ e ∈ es, 0 < e.val center) : ∃ l, (build center S es).shape center = some l ∧ (∀ x, x ∈ l ↔ x ∈ corners (build center S es)) ∧ l.Nodup ∧ 3 ≤ l.length ∧
    l.Pairwise fun x y => ∃ a b, Polar (x.sub center) a ∧ Polar (y.sub center) b ∧ a < b := by
  have h := build_good (center := center) hw hes
  generalize build center S es = P at *
  have hinj : ∀ a ∈ corners P, ∀ b ∈ corners P, angle (a.sub center) = angle (b.sub center) → a = b := by
    intro a ha b hb e
    obtain ⟨h1, h2⟩ := angle_eq (h.corner_ne ha) (h.corner_ne hb) e
    exact h.corner_inj ha hb h1 h2
  obtain ⟨h1, h2⟩ := puts (fun v => angle (v.sub center)) (corners P) hinj
  generalize hm : (corners P).foldl (fun m v => put (angle (v.sub center)) v m) [] = m at *
  have hmem : ∀ x, x ∈ m.map Prod.snd ↔ x ∈ corners P := by
    intro x
    rw [List.mem_map]
    constructor
    · rintro ⟨y, hy, rfl⟩
      exact ((h2 y).1 hy).2
    · exact fun hx => ⟨(angle (x.sub center), x), (h2 _).2 ⟨rfl, hx⟩, rfl⟩
  have hsort : (m.map Prod.snd).Pairwise fun x y => angle (x.sub center) < angle (y.sub center) := by
    rw [List.pairwise_map]
    refine List.Pairwise.imp_of_mem (fun ha hb hab => ?_) h1
    rw [((h2 _).1 ha).1, ((h2 _).1 hb).1] at hab
    exact hab
  have hnd : (m.map Prod.snd).Nodup := hsort.imp fun hab e => by
    rw [e] at hab
    exact lt_irrefl _ hab
  have hlen : 3 ≤ (m.map Prod.snd).length := by
    by_contra hlt
    generalize m.map Prod.snd = l at *
    have : ∃ a b : V, ∀ x ∈ l, x = a ∨ x = b := by
      match l, hlt with
      | [], _ => exact ⟨center, center, by simp⟩
      | [a], _ => exact ⟨a, a, by simp⟩
      | [a, b], _ => exact ⟨a, b, by simp⟩
      | _ :: _ :: _ :: _, hlt => exact absurd (by simp) hlt
    obtain ⟨a, b, hab⟩ := this
    obtain ⟨x, hx, na, nb⟩ := h.three a b
    rcases hab x ((hmem x).2 hx) with e | e
    · exact na e
    · exact nb e
  refine ⟨m.map Prod.snd, ?_, hmem, hnd, hlen, List.Pairwise.imp_of_mem (fun ha hb hab =>
    ⟨_, _, angle_polar (h.corner_ne ((hmem _).1 ha)), angle_polar (h.corner_ne ((hmem _).1 hb)), hab⟩) hsort⟩
  unfold Poly.shape
  dsimp only
  have hcu : (P.cuts.flatMap fun v => [v.1, v.2]) = corners P := rfl
  rw [hcu, if_neg, hm, if_neg (by omega)]
  rw [List.any_eq_true]
  rintro ⟨x, hx, e⟩
  exact (h.corner hx).2.2.2 (of_decide_eq_true e)

/-- triangle -/
example : ∃ l, (build ⟨2, 2⟩ ⟨8, 8⟩ slants).shape ⟨2, 2⟩ = some l ∧ (∀ x, x ∈ l ↔ x ∈ corners (build ⟨2, 2⟩ ⟨8, 8⟩ slants)) ∧ 3 ≤ l.length := by
  obtain ⟨l, h1, h2, -, h3, -⟩ := shape_spec ⟨2, 2⟩ ⟨8, 8⟩ slants (by unfold Inner; norm_num) (by
    intro e he
    simp only [slants, List.mem_cons, List.not_mem_nil, or_false] at he
    rcases he with rfl | rfl <;> (simp only [Plane.val, V.sub, V.dot]; norm_num))
  exact ⟨l, h1, h2, h3⟩

/-- angles go counterclockwise, from -π/2 -/
example : angle ⟨0, -2⟩ = -(Real.pi / 2) ∧ angle ⟨3, 0⟩ = 0 ∧ angle ⟨-3, 0⟩ = Real.pi := by
  refine ⟨?_, ?_, ?_⟩
  · simp [angle]
  · simp [angle]
  · simp [angle]

end LGD.C62
