import Verif.Part.HIndexModel
import Verif.Part.Hilbert

/-!
# The traversal of triangles

Spec of H-indexing: a triangle is given by its type and its bounding box.
-/

namespace LGD.HX
open LGD

/-- triangle: type and bounding box -/
structure TB where
  t : Nat
  x : Int
  y : Int
  w : Int
  h : Int

/-- corner at which the traversal starts (axis 1 points downwards) -/
def TB.cx (n : TB) : Int := if n.t = 1 ∨ n.t = 3 then n.x + n.w else n.x
def TB.cy (n : TB) : Int := if n.t = 0 ∨ n.t = 1 then n.y + n.h else n.y

def kid (n : TB) (c : Nat) : TB :=
  let l := n.w / 2
  let r := n.w - n.w / 2
  let u := n.h / 2
  let d := n.h - n.h / 2
  match n.t, c with
  | 0, 0 => ⟨0, n.x, n.y + u, l, d⟩
  | 0, 1 => ⟨1, n.x, n.y, l, u⟩
  | 0, 2 => ⟨2, n.x, n.y, l, u⟩
  | 0, _ => ⟨0, n.x + l, n.y, r, u⟩
  | 1, 0 => ⟨1, n.x + l, n.y + u, r, d⟩
  | 1, 1 => ⟨3, n.x, n.y + u, l, d⟩
  | 1, 2 => ⟨0, n.x, n.y + u, l, d⟩
  | 1, _ => ⟨1, n.x, n.y, l, u⟩
  | 2, 0 => ⟨2, n.x, n.y, l, u⟩
  | 2, 1 => ⟨0, n.x + l, n.y, r, u⟩
  | 2, 2 => ⟨3, n.x + l, n.y, r, u⟩
  | 2, _ => ⟨2, n.x + l, n.y + u, r, d⟩
  | _, 0 => ⟨3, n.x + l, n.y, r, u⟩
  | _, 1 => ⟨2, n.x + l, n.y + u, r, d⟩
  | _, 2 => ⟨1, n.x + l, n.y + u, r, d⟩
  | _, _ => ⟨3, n.x, n.y + u, l, d⟩

theorem kid_dims (n : TB) (c : Nat) : ((kid n c).w = n.w / 2 ∨ (kid n c).w = n.w - n.w / 2) ∧ ((kid n c).h = n.h / 2 ∨ (kid n c).h = n.h - n.h / 2) := by
  unfold kid
  dsimp only
  split <;> simp

theorem kid_t (n : TB) (c : Nat) : (kid n c).t < 4 := by
  unfold kid
  dsimp only
  split <;> simp

theorem kid_lt (n : TB) (c : Nat) (hw : 2 ≤ n.w) (hh : 2 ≤ n.h) : 1 ≤ (kid n c).w ∧ 1 ≤ (kid n c).h ∧ (kid n c).w < n.w ∧ (kid n c).h < n.h := by
  have := kid_dims n c
  omega

/-- traversal of a triangle that consists of one row or column -/
def line (n : TB) : List P2 :=
  if n.t = 1 ∨ n.t = 3 then []
  else if n.w > 1 then (List.range n.w.toNat).map (fun i : Nat => (n.x + (i : Int), n.y))
  else if n.t = 0 then (List.range n.h.toNat).map (fun i : Nat => (n.x, n.y + n.h - 1 - (i : Int)))
  else (List.range n.h.toNat).map (fun i : Nat => (n.x, n.y + (i : Int)))

/-- Spec: the coordinates of a triangle in order. -/
def walk (n : TB) : List P2 :=
  if _h0 : n.w ≤ 0 ∨ n.h ≤ 0 then []
  else if _h1 : n.w = 1 ∨ n.h = 1 then line n
  else walk (kid n 0) ++ (walk (kid n 1) ++ (walk (kid n 2) ++ walk (kid n 3)))
termination_by (n.w + n.h).toNat
decreasing_by
  all_goals
    have := kid_lt n 0 (by omega) (by omega)
    have := kid_lt n 1 (by omega) (by omega)
    have := kid_lt n 2 (by omega) (by omega)
    have := kid_lt n 3 (by omega) (by omega)
    omega

theorem walk_line {n : TB} (h0 : 1 ≤ n.w ∧ 1 ≤ n.h) (h1 : n.w = 1 ∨ n.h = 1) : walk n = line n := by
  rw [walk, dif_neg (by omega), dif_pos h1]

theorem walk_nil {n : TB} (h0 : n.w ≤ 0 ∨ n.h ≤ 0) : walk n = [] := by
  rw [walk, dif_pos h0]

theorem walk_kids {n : TB} (hw : 2 ≤ n.w) (hh : 2 ≤ n.h) :
    walk n = walk (kid n 0) ++ (walk (kid n 1) ++ (walk (kid n 2) ++ walk (kid n 3))) := by
  rw [walk, dif_neg (by omega), dif_neg (by omega)]

/-! ## complementary triangles fill a box -/

/-- each coordinate of the box exactly once -/
def Fills (l : List P2) (x y w h : Int) : Prop :=
  l.Nodup ∧ ∀ p : P2, p ∈ l ↔ (x ≤ p.1 ∧ p.1 < x + w) ∧ (y ≤ p.2 ∧ p.2 < y + h)

theorem Fills.perm {l m : List P2} {x y w h : Int} (hl : Fills l x y w h) (hp : l.Perm m) : Fills m x y w h :=
  ⟨hp.nodup_iff.1 hl.1, fun p => by rw [← hp.mem_iff]; exact hl.2 p⟩

theorem Fills.four {a b c e : List P2} {x y l r u d : Int} (ha : Fills a x y l u) (hb : Fills b (x + l) y r u)
    (hc : Fills c (x + l) (y + u) r d) (he : Fills e x (y + u) l d) (h0 : 0 ≤ l ∧ 0 ≤ r ∧ 0 ≤ u ∧ 0 ≤ d) :
    Fills (a ++ (b ++ (c ++ e))) x y (l + r) (u + d) := by
  refine ⟨?_, fun p => ?_⟩
  · rw [List.nodup_append, List.nodup_append, List.nodup_append]
    refine ⟨ha.1, ⟨hb.1, ⟨hc.1, he.1, ?_⟩, ?_⟩, ?_⟩
    · rintro p hp q hq rfl
      have h1 := (hc.2 p).1 hp
      have h2 := (he.2 p).1 hq
      omega
    · rintro p hp q hq rfl
      have h1 := (hb.2 p).1 hp
      rcases List.mem_append.1 hq with hq | hq
      · have h2 := (hc.2 p).1 hq; omega
      · have h2 := (he.2 p).1 hq; omega
    · rintro p hp q hq rfl
      have h1 := (ha.2 p).1 hp
      rcases List.mem_append.1 hq with hq | hq
      · have h2 := (hb.2 p).1 hq; omega
      · rcases List.mem_append.1 hq with hq | hq
        · have h2 := (hc.2 p).1 hq; omega
        · have h2 := (he.2 p).1 hq; omega
  · rw [List.mem_append, List.mem_append, List.mem_append, ha.2, hb.2, hc.2, he.2]
    omega

theorem nodup_map_inj {α : Type} {f : Nat → α} (m : Nat) (h : ∀ i j, f i = f j → i = j) : ((List.range m).map f).Nodup :=
  List.pairwise_map.2 (List.Pairwise.imp (fun {i j} hij he => by have := h i j he; omega) List.pairwise_lt_range)

theorem line_fills {n : TB} (ht : n.t = 0 ∨ n.t = 2) (h0 : 1 ≤ n.w ∧ 1 ≤ n.h) (h1 : n.w = 1 ∨ n.h = 1) : Fills (line n) n.x n.y n.w n.h := by
  unfold line
  rw [if_neg (by omega)]
  split
  · refine ⟨?_, fun p => ?_⟩
    · refine nodup_map_inj _ ?_
      intro i j h
      have := (Prod.mk.inj h).1
      omega
    · rw [List.mem_map]
      constructor
      · rintro ⟨i, hi, rfl⟩
        have := List.mem_range.1 hi
        constructor <;> constructor <;> simp only <;> omega
      · intro hp
        exact ⟨(p.1 - n.x).toNat, List.mem_range.2 (by omega), Prod.ext (by simp only; omega) (by simp only; omega)⟩
  · split
    · refine ⟨?_, fun p => ?_⟩
      · refine nodup_map_inj _ ?_
        intro i j h
        have := (Prod.mk.inj h).2
        omega
      · rw [List.mem_map]
        constructor
        · rintro ⟨i, hi, rfl⟩
          have := List.mem_range.1 hi
          constructor <;> constructor <;> simp only <;> omega
        · intro hp
          exact ⟨(n.y + n.h - 1 - p.2).toNat, List.mem_range.2 (by omega), Prod.ext (by simp only; omega) (by simp only; omega)⟩
    · refine ⟨?_, fun p => ?_⟩
      · refine nodup_map_inj _ ?_
        intro i j h
        have := (Prod.mk.inj h).2
        omega
      · rw [List.mem_map]
        constructor
        · rintro ⟨i, hi, rfl⟩
          have := List.mem_range.1 hi
          constructor <;> constructor <;> simp only <;> omega
        · intro hp
          exact ⟨(p.2 - n.y).toNat, List.mem_range.2 (by omega), Prod.ext (by simp only; omega) (by simp only; omega)⟩

theorem blocks_perm (a b c d e f g h : List P2) (p : List Nat) (hp : [0, 1, 2, 3, 4, 5, 6, 7].Perm p) :
    ((a ++ (b ++ (c ++ d))) ++ (e ++ (f ++ (g ++ h)))).Perm
      (p.flatMap (fun i => match i with | 0 => a | 1 => b | 2 => c | 3 => d | 4 => e | 5 => f | 6 => g | _ => h)) := by
  have := List.Perm.flatMap_right (fun i : Nat => match i with | 0 => a | 1 => b | 2 => c | 3 => d | 4 => e | 5 => f | 6 => g | _ => h) hp
  refine List.Perm.trans (List.Perm.of_eq ?_) this
  simp [List.flatMap_cons]

/-- **The two complementary pairs of triangles fill their box.** -/
theorem fills_pairs (m : Nat) : ∀ (x y w h : Int), (w + h).toNat = m →
    (0 ≤ w → 0 ≤ h → Fills (walk ⟨2, x, y, w, h⟩ ++ walk ⟨1, x, y, w, h⟩) x y w h) ∧
    (0 ≤ w → 0 ≤ h → Fills (walk ⟨0, x, y, w, h⟩ ++ walk ⟨3, x, y, w, h⟩) x y w h) := by
  induction m using Nat.strongRecOn with
  | _ m ih =>
    intro x y w h hm
    by_cases hz : w ≤ 0 ∨ h ≤ 0
    · have e : ∀ t, walk ⟨t, x, y, w, h⟩ = [] := fun t => walk_nil hz
      rw [e, e, e, e]
      have : Fills ([] ++ []) x y w h := ⟨by simp, fun p => by simp; omega⟩
      exact ⟨fun _ _ => this, fun _ _ => this⟩
    · by_cases h1 : w = 1 ∨ h = 1
      · have e1 : walk ⟨1, x, y, w, h⟩ = [] := by rw [walk_line (by simp only; omega) h1]; rfl
        have e3 : walk ⟨3, x, y, w, h⟩ = [] := by rw [walk_line (by simp only; omega) h1]; rfl
        rw [e1, e3, List.append_nil, List.append_nil, walk_line (by simp only; omega) h1, walk_line (by simp only; omega) h1]
        exact ⟨fun _ _ => line_fills (Or.inr rfl) (by simp only; omega) h1, fun _ _ => line_fills (Or.inl rfl) (by simp only; omega) h1⟩
      · obtain ⟨l, hl⟩ : ∃ l, l = w / 2 := ⟨_, rfl⟩
        obtain ⟨r, hr⟩ : ∃ r, r = w - w / 2 := ⟨_, rfl⟩
        obtain ⟨u, hu⟩ : ∃ u, u = h / 2 := ⟨_, rfl⟩
        obtain ⟨d, hd⟩ : ∃ d, d = h - h / 2 := ⟨_, rfl⟩
        have qa := ih (l + u).toNat (by omega) x y l u rfl
        have qb := ih (r + u).toNat (by omega) (x + l) y r u rfl
        have qc := ih (r + d).toNat (by omega) (x + l) (y + u) r d rfl
        have qd := ih (l + d).toNat (by omega) x (y + u) l d rfl
        have ew : w = l + r := by omega
        have eh : h = u + d := by omega
        have p0 : 0 ≤ l ∧ 0 ≤ r ∧ 0 ≤ u ∧ 0 ≤ d := by omega
        refine ⟨fun _ _ => ?_, fun _ _ => ?_⟩
        · rw [walk_kids (n := ⟨2, x, y, w, h⟩) (by simp only; omega) (by simp only; omega), walk_kids (n := ⟨1, x, y, w, h⟩) (by simp only; omega) (by simp only; omega)]
          simp only [kid]
          rw [← hr, ← hd, ← hl, ← hu]
          have := Fills.four (qa.1 p0.1 p0.2.2.1) (qb.2 p0.2.1 p0.2.2.1) (qc.1 p0.2.1 p0.2.2.2) (qd.2 p0.1 p0.2.2.2) p0
          rw [ew, eh]
          refine this.perm ((blocks_perm _ _ _ _ _ _ _ _ [0, 7, 1, 2, 3, 4, 6, 5] (by decide)).trans ?_).symm
          refine List.Perm.of_eq ?_
          simp [List.flatMap_cons]
        · rw [walk_kids (n := ⟨0, x, y, w, h⟩) (by simp only; omega) (by simp only; omega), walk_kids (n := ⟨3, x, y, w, h⟩) (by simp only; omega) (by simp only; omega)]
          simp only [kid]
          rw [← hr, ← hd, ← hl, ← hu]
          have := Fills.four (qa.1 p0.1 p0.2.2.1) (qb.2 p0.2.1 p0.2.2.1) (qc.1 p0.2.1 p0.2.2.2) (qd.2 p0.1 p0.2.2.2) p0
          rw [ew, eh]
          refine this.perm ((blocks_perm _ _ _ _ _ _ _ _ [2, 1, 3, 4, 5, 6, 0, 7] (by decide)).trans ?_).symm
          refine List.Perm.of_eq ?_
          simp [List.flatMap_cons]

/-! ## translation -/

def TB.shift (n : TB) (a b : Int) : TB := ⟨n.t, n.x + a, n.y + b, n.w, n.h⟩

theorem kid_shift (n : TB) (a b : Int) (c : Nat) : kid (n.shift a b) c = (kid n c).shift a b := by
  obtain ⟨t, x, y, w, h⟩ := n
  unfold kid TB.shift
  dsimp only
  split <;> simp only [TB.mk.injEq, true_and, and_true] <;> omega

theorem line_shift (n : TB) (a b : Int) : line (n.shift a b) = (line n).map (fun p => (p.1 + a, p.2 + b)) := by
  obtain ⟨t, x, y, w, h⟩ := n
  show line ⟨t, x + a, y + b, w, h⟩ = _
  simp only [line]
  by_cases c1 : t = 1 ∨ t = 3
  · rw [if_pos c1, if_pos c1]; rfl
  · rw [if_neg c1, if_neg c1]
    by_cases c2 : w > 1
    · rw [if_pos c2, if_pos c2, List.map_map]; apply List.map_congr_left; intro i _; refine Prod.ext ?_ ?_ <;> simp only [Function.comp_apply] <;> omega
    · rw [if_neg c2, if_neg c2]
      by_cases c3 : t = 0
      · rw [if_pos c3, if_pos c3, List.map_map]; apply List.map_congr_left; intro i _; refine Prod.ext ?_ ?_ <;> simp only [Function.comp_apply] <;> omega
      · rw [if_neg c3, if_neg c3, List.map_map]; apply List.map_congr_left; intro i _; refine Prod.ext ?_ ?_ <;> simp only [Function.comp_apply] <;> omega

theorem walk_shift (m : Nat) : ∀ (n : TB) (a b : Int), (n.w + n.h).toNat = m → walk (n.shift a b) = (walk n).map (fun p => (p.1 + a, p.2 + b)) := by
  induction m using Nat.strongRecOn with
  | _ m ih =>
    intro n a b hm
    by_cases hz : n.w ≤ 0 ∨ n.h ≤ 0
    · rw [walk_nil hz, walk_nil (n := n.shift a b) hz]; rfl
    · by_cases h1 : n.w = 1 ∨ n.h = 1
      · rw [walk_line (by omega) h1, walk_line (n := n.shift a b) (by simp only [TB.shift]; omega) h1]
        exact line_shift n a b
      · have hk : ∀ c, walk ((kid n c).shift a b) = (walk (kid n c)).map (fun p => (p.1 + a, p.2 + b)) := by
          intro c
          have := kid_lt n c (by omega) (by omega)
          exact ih _ (by omega) (kid n c) a b rfl
        rw [walk_kids (n := n) (by omega) (by omega), walk_kids (n := n.shift a b) (by simp only [TB.shift]; omega) (by simp only [TB.shift]; omega)]
        rw [kid_shift, kid_shift, kid_shift, kid_shift, hk, hk, hk, hk]
        simp only [List.map_append]

/-! ## leaves -/

/-- triangles which are not subdivided -/
def leaf (maxC : Int) (n : TB) : Prop := n.w < 2 ∨ n.h < 2 ∨ (n.w < maxC ∧ n.h < maxC)

instance (maxC : Int) (n : TB) : Decidable (leaf maxC n) := by unfold leaf; infer_instance

def leaves (maxC : Int) (n : TB) : List TB :=
  if _h : leaf maxC n then [n]
  else leaves maxC (kid n 0) ++ (leaves maxC (kid n 1) ++ (leaves maxC (kid n 2) ++ leaves maxC (kid n 3)))
termination_by (n.w + n.h).toNat
decreasing_by
  all_goals
    unfold leaf at _h
    have := kid_lt n 0 (by omega) (by omega)
    have := kid_lt n 1 (by omega) (by omega)
    have := kid_lt n 2 (by omega) (by omega)
    have := kid_lt n 3 (by omega) (by omega)
    omega

theorem leaves_leaf {maxC : Int} {n : TB} (h : leaf maxC n) : leaves maxC n = [n] := by rw [leaves, dif_pos h]

theorem leaves_kids {maxC : Int} {n : TB} (h : ¬ leaf maxC n) :
    leaves maxC n = leaves maxC (kid n 0) ++ (leaves maxC (kid n 1) ++ (leaves maxC (kid n 2) ++ leaves maxC (kid n 3))) := by
  rw [leaves, dif_neg h]

theorem not_leaf {maxC : Int} {n : TB} (h : ¬ leaf maxC n) : 2 ≤ n.w ∧ 2 ≤ n.h := by unfold leaf at h; omega

theorem leaves_spec (maxC : Int) (m : Nat) : ∀ n : TB, (n.w + n.h).toNat = m → 1 ≤ n.w → 1 ≤ n.h → n.t < 4 →
    (leaves maxC n).flatMap walk = walk n ∧ (leaves maxC n).length ≤ 4 ^ m ∧
    ∀ k ∈ leaves maxC n, leaf maxC k ∧ 1 ≤ k.w ∧ 1 ≤ k.h ∧ k.t < 4 := by
  induction m using Nat.strongRecOn with
  | _ m ih =>
    intro n hm hw hh ht
    by_cases hl : leaf maxC n
    · rw [leaves_leaf hl]
      refine ⟨by simp, ?_, fun k hk => ?_⟩
      · exact Nat.one_le_pow _ _ (by decide)
      · rw [List.mem_singleton] at hk
        subst hk; exact ⟨hl, hw, hh, ht⟩
    · obtain ⟨h2, h3⟩ := not_leaf hl
      rw [leaves_kids hl, walk_kids h2 h3]
      have hk : ∀ c, (leaves maxC (kid n c)).flatMap walk = walk (kid n c) ∧ (leaves maxC (kid n c)).length ≤ 4 ^ (m - 1) ∧
          ∀ k ∈ leaves maxC (kid n c), leaf maxC k ∧ 1 ≤ k.w ∧ 1 ≤ k.h ∧ k.t < 4 := by
        intro c
        have := kid_lt n c h2 h3
        obtain ⟨a1, a2, a3⟩ := ih ((kid n c).w + (kid n c).h).toNat (by omega) (kid n c) rfl (by omega) (by omega) (kid_t n c)
        exact ⟨a1, Nat.le_trans a2 (Nat.pow_le_pow_right (by decide) (by omega)), a3⟩
      obtain ⟨m', rfl⟩ : ∃ m', m = m' + 1 := ⟨m - 1, by omega⟩
      refine ⟨?_, ?_, ?_⟩
      · rw [List.flatMap_append, List.flatMap_append, List.flatMap_append, (hk 0).1, (hk 1).1, (hk 2).1, (hk 3).1]
      · have b0 := (hk 0).2.1
        have b1 := (hk 1).2.1
        have b2 := (hk 2).2.1
        have b3 := (hk 3).2.1
        rw [Nat.add_sub_cancel] at b0 b1 b2 b3
        rw [Nat.pow_succ]
        simp only [List.length_append]
        omega
      · intro k hk'
        simp only [List.mem_append] at hk'
        rcases hk' with h | h | h | h
        · exact (hk 0).2.2 k h
        · exact (hk 1).2.2 k h
        · exact (hk 2).2.2 k h
        · exact (hk 3).2.2 k h

theorem walk_even (m : Nat) : ∀ n : TB, (n.w + n.h).toNat = m → 1 ≤ n.w → 1 ≤ n.h → (n.t = 0 ∨ n.t = 2) → walk n ≠ [] := by
  induction m using Nat.strongRecOn with
  | _ m ih =>
    intro n hm hw hh ht
    by_cases h1 : n.w = 1 ∨ n.h = 1
    · rw [walk_line ⟨hw, hh⟩ h1]
      intro he
      have := ((line_fills ht ⟨hw, hh⟩ h1).2 (n.x, n.y)).2 (by constructor <;> constructor <;> simp only <;> omega)
      rw [he] at this
      exact List.not_mem_nil this
    · rw [walk_kids (by omega) (by omega)]
      have hk := kid_lt n 0 (by omega) (by omega)
      have ht' : (kid n 0).t = 0 ∨ (kid n 0).t = 2 := by
        rcases ht with ht | ht <;> simp [kid, ht]
      have := ih _ (by omega) (kid n 0) rfl hk.1 hk.2.1 ht'
      intro he
      exact this (List.append_eq_nil_iff.1 he).1

theorem walk_nonempty {n : TB} (ht : n.t < 4) (hw : 2 ≤ n.w) (hh : 2 ≤ n.h) : walk n ≠ [] := by
  by_cases he : n.t = 0 ∨ n.t = 2
  · exact walk_even _ n rfl (by omega) (by omega) he
  · rw [walk_kids hw hh]
    intro h
    have h := List.append_eq_nil_iff.1 h
    have h1 := List.append_eq_nil_iff.1 h.2
    have h2 := List.append_eq_nil_iff.1 h1.2
    have : n.t = 1 ∨ n.t = 3 := by omega
    rcases this with ht | ht
    · have hk := kid_lt n 2 hw hh
      exact walk_even _ (kid n 2) rfl hk.1 hk.2.1 (by simp [kid, ht]) h2.1
    · have hk := kid_lt n 1 hw hh
      exact walk_even _ (kid n 1) rfl hk.1 hk.2.1 (by simp [kid, ht]) h1.1

/-- number of coordinates of a triangle -/
theorem walk_length_le {n : TB} (ht : n.t < 4) (hw : 0 ≤ n.w) (hh : 0 ≤ n.h) : ((walk n).length : Int) ≤ n.w * n.h := by
  have key : ∀ l : List P2, Fills l n.x n.y n.w n.h → (l.length : Int) = n.w * n.h := by
    intro l hl
    let g : List P2 := (List.range n.w.toNat).flatMap (fun i : Nat => (List.range n.h.toNat).map (fun j : Nat => (n.x + (i : Int), n.y + (j : Int))))
    have hg : Fills g n.x n.y n.w n.h := by
      refine ⟨?_, fun p => ?_⟩
      · refine List.pairwise_flatMap.2 ⟨fun i _ => nodup_map_inj _ (fun a b h => by have := (Prod.mk.inj h).2; omega), ?_⟩
        refine List.Pairwise.imp ?_ List.pairwise_lt_range
        intro i j hij p hp q hq hpq
        subst hpq
        obtain ⟨a, _, rfl⟩ := List.mem_map.1 hp
        obtain ⟨b, _, hb⟩ := List.mem_map.1 hq
        have := (Prod.mk.inj hb).1
        omega
      · rw [List.mem_flatMap]
        constructor
        · rintro ⟨i, hi, hp⟩
          obtain ⟨j, hj, rfl⟩ := List.mem_map.1 hp
          have := List.mem_range.1 hi
          have := List.mem_range.1 hj
          constructor <;> constructor <;> simp only <;> omega
        · intro hp
          exact ⟨(p.1 - n.x).toNat, List.mem_range.2 (by omega), List.mem_map.2 ⟨(p.2 - n.y).toNat, List.mem_range.2 (by omega),
            Prod.ext (by simp only; omega) (by simp only; omega)⟩⟩
    have hp : l.Perm g := (List.perm_ext_iff_of_nodup hl.1 hg.1).2 (fun p => by rw [hl.2, hg.2])
    rw [hp.length_eq]
    simp only [g, List.length_flatMap, List.length_map, List.length_range]
    rw [List.map_const', List.sum_replicate_nat, List.length_range, Int.natCast_mul]
    rw [Int.toNat_of_nonneg hw, Int.toNat_of_nonneg hh]
  obtain ⟨f1, f2⟩ := fills_pairs _ n.x n.y n.w n.h rfl
  have k1 := key _ (f1 hw hh)
  have k2 := key _ (f2 hw hh)
  rw [List.length_append] at k1 k2
  obtain ⟨t, x, y, w, h⟩ := n
  have : t = 0 ∨ t = 1 ∨ t = 2 ∨ t = 3 := by simp only at ht; omega
  rcases this with rfl | rfl | rfl | rfl <;> simp only at k1 k2 ⊢ <;> omega

end LGD.HX
