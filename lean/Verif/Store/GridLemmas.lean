import Verif.Store.GridModel
import Verif.Region.Iter
import Verif.Props.C13
import Verif.Props.C43Inst
import Mathlib.Tactic.Ring

/-!
# Lemmas on grids
-/

namespace LGD.Store
open LGD.C13 LGD.C14

variable {α : Type} {n : Nat} {wraps : Nat → Bool}

/-- a grid whose vector has one element per coordinate; all extents are positive -/
structure GridOK (n : Nat) (g : Grid α) : Prop where
  pos : ∀ k, k ≤ n → 0 < g.dim k
  size : (g.cells.length : Int) = C12.Volume n g.dim

/-- two coordinates denote the same cell: both are outside, or they are equal modulo the extents of the periodic axes -/
def Same (n : Nat) (wraps : Nat → Bool) (dim a b : Crd) : Prop :=
  (Outside n wraps dim a ∧ Outside n wraps dim b) ∨
    (¬ Outside n wraps dim a ∧ ¬ Outside n wraps dim b ∧ ∀ k, k ≤ n → if wraps k then a k % dim k = b k % dim k else a k = b k)

theorem outside_congr {dim a b : Crd} (h : ∀ k, k ≤ n → a k = b k) (ha : Outside n wraps dim a) : Outside n wraps dim b := by
  obtain ⟨k, h1, h2, h3⟩ := ha
  exact ⟨k, h1, h2, by rwa [← h k h1]⟩

theorem locate_congr (hn : n ≤ 2) {dim a b : Crd} (h : ∀ k, k ≤ n → a k = b k) : topoLocate n wraps a dim = topoLocate n wraps b dim := by
  have e : outOfBounds n wraps a dim = outOfBounds n wraps b dim := by
    rw [Bool.eq_iff_iff, outOfBounds_iff, outOfBounds_iff]
    exact ⟨outside_congr h, outside_congr fun k hk => (h k hk).symm⟩
  unfold topoLocate
  rw [e, toIndex_lin n hn, toIndex_lin n hn, lin_congr dim n 0 (normEdges a dim) (normEdges b dim) (fun j _ hj => by unfold normEdges; rw [h j (by omega)])]

theorem read_congr (hn : n ≤ 2) (g : Grid α) {a b : Crd} (h : ∀ k, k ≤ n → a k = b k) : gridRead n wraps g a = gridRead n wraps g b := by
  unfold gridRead; rw [locate_congr hn h]

theorem write_congr (hn : n ≤ 2) (g : Grid α) (v : α) {a b : Crd} (h : ∀ k, k ≤ n → a k = b k) : gridWrite n wraps g a v = gridWrite n wraps g b v := by
  unfold gridWrite; rw [locate_congr hn h]

theorem onePeriod_of_inDim {dim c : Crd} (h : InDim n dim c) : OnePeriod n wraps dim c := fun k hk _ => by
  have := h k hk; omega

theorem not_outside_of_inDim {dim c : Crd} (h : InDim n dim c) : ¬ Outside n wraps dim c := fun ⟨k, hk, _, h'⟩ => h' (h k hk)

theorem same_locate (hn : n ≤ 2) {dim a b : Crd} (hd : ∀ k, k ≤ n → 0 < dim k) (ha : OnePeriod n wraps dim a) (hb : OnePeriod n wraps dim b) :
    Same n wraps dim a b ↔ topoLocate n wraps a dim = topoLocate n wraps b dim := by
  obtain ⟨a1, a2⟩ := locate_spec n hn wraps dim a hd ha
  obtain ⟨b1, b2⟩ := locate_spec n hn wraps dim b hd hb
  by_cases oa : Outside n wraps dim a
  · by_cases ob : Outside n wraps dim b
    · exact ⟨fun _ => by rw [a1 oa, b1 ob], fun _ => Or.inl ⟨oa, ob⟩⟩
    · obtain ⟨i, h, _⟩ := b2 ob
      rw [a1 oa, h]
      constructor
      · rintro (h | h)
        · exact (ob h.2).elim
        · exact (h.1 oa).elim
      · intro h; cases h
  · by_cases ob : Outside n wraps dim b
    · obtain ⟨i, h, _⟩ := a2 oa
      rw [b1 ob, h]
      constructor
      · rintro (h | h)
        · exact (oa h.1).elim
        · exact (h.2.1 ob).elim
      · intro h; cases h
    · obtain ⟨i, h1, h2, _⟩ := a2 oa
      obtain ⟨j, h3, h4, _⟩ := b2 ob
      have hin : ∀ c : Crd, InDim n dim (fun k => c k % dim k) := fun c k hk =>
        ⟨Int.emod_nonneg _ (by have := hd k hk; omega), Int.emod_lt_of_pos _ (hd k hk)⟩
      have key : (∀ k, k ≤ n → a k % dim k = b k % dim k) ↔ i = j := by
        rw [h2, h4]
        constructor
        · intro h
          rw [toIndex_lin n hn, toIndex_lin n hn]
          exact lin_congr dim n 0 _ _ (fun l _ hl => h l (by omega))
        · intro h k hk
          have ea := ((index_bijection n hn dim hd).1 _ (hin a)).2.2 k hk
          have eb := ((index_bijection n hn dim hd).1 _ (hin b)).2.2 k hk
          rw [h] at ea
          exact ea.symm.trans eb
      rw [h1, h3, Option.some.injEq, ← key]
      have inside : ∀ c, ¬ Outside n wraps dim c → ∀ k, k ≤ n → wraps k = false → c k % dim k = c k := by
        intro c hc k hk hw
        have : 0 ≤ c k ∧ c k < dim k := by
          by_contra hh
          exact hc ⟨k, hk, hw, hh⟩
        exact Int.emod_eq_of_lt this.1 this.2
      constructor
      · rintro (h | ⟨_, _, h⟩)
        · exact (oa h.1).elim
        · intro k hk
          have := h k hk
          cases hw : wraps k with
          | true => rw [hw] at this; exact this
          | false =>
            rw [hw] at this
            simp only [Bool.false_eq_true, if_false] at this
            rw [this]
      · intro h
        refine Or.inr ⟨oa, ob, fun k hk => ?_⟩
        cases hw : wraps k with
        | true => simpa using h k hk
        | false =>
          simp only [Bool.false_eq_true, if_false]
          rw [← inside a oa k hk hw, ← inside b ob k hk hw]
          exact h k hk

theorem locate_range (hn : n ≤ 2) {g : Grid α} (hg : GridOK n g) {c : Crd} (hc : OnePeriod n wraps g.dim c) (i : Int)
    (h : topoLocate n wraps c g.dim = some i) : 0 ≤ i ∧ i < g.cells.length := by
  obtain ⟨h1, h2⟩ := locate_spec n hn wraps g.dim c hg.pos hc
  by_cases o : Outside n wraps g.dim c
  · rw [h1 o] at h; cases h
  · obtain ⟨j, e, _, h3, h4⟩ := h2 o
    rw [h] at e
    obtain rfl := Option.some.inj e
    exact ⟨h3, by rw [hg.size]; exact h4⟩

theorem read_some (hn : n ≤ 2) {g : Grid α} (hg : GridOK n g) {c : Crd} (hc : OnePeriod n wraps g.dim c) : ∃ v, gridRead n wraps g c = some v := by
  unfold gridRead
  cases h : topoLocate n wraps c g.dim with
  | none => exact ⟨_, rfl⟩
  | some i =>
    obtain ⟨h1, h2⟩ := locate_range hn hg hc i h
    simp only
    rw [if_pos h1]
    exact ⟨_, List.getElem?_eq_getElem (by omega)⟩

theorem write_spec (hn : n ≤ 2) {g : Grid α} (hg : GridOK n g) {c : Crd} (hc : OnePeriod n wraps g.dim c) (v : α) :
    ∃ g', gridWrite n wraps g c v = some g' ∧ GridOK n g' ∧ g'.dim = g.dim ∧ (Outside n wraps g.dim c → g'.edge = v) ∧ (¬ Outside n wraps g.dim c → g'.edge = g.edge) ∧
      ∀ d, OnePeriod n wraps g.dim d → (Same n wraps g.dim c d → gridRead n wraps g' d = some v) ∧
        (¬ Same n wraps g.dim c d → gridRead n wraps g' d = gridRead n wraps g d) := by
  obtain ⟨l1, l2⟩ := locate_spec n hn wraps g.dim c hg.pos hc
  unfold gridWrite
  cases h : topoLocate n wraps c g.dim with
  | none =>
    have ho : Outside n wraps g.dim c := by
      by_contra ho
      obtain ⟨i, e, _⟩ := l2 ho
      rw [h] at e; cases e
    refine ⟨_, rfl, ⟨hg.pos, hg.size⟩, rfl, fun _ => rfl, fun h => (h ho).elim, fun d hd => ?_⟩
    rw [same_locate hn hg.pos hc hd, h]
    unfold gridRead
    simp only
    constructor
    · intro e; rw [← e]
    · intro e
      cases h' : topoLocate n wraps d g.dim with
      | none => exact (e h'.symm).elim
      | some i => rfl
  | some i =>
    obtain ⟨h1, h2⟩ := locate_range hn hg hc i h
    have ho : ¬ Outside n wraps g.dim c := by
      intro ho
      rw [l1 ho] at h; cases h
    simp only
    rw [if_pos ⟨h1, h2⟩]
    refine ⟨_, rfl, ⟨hg.pos, by rw [← hg.size]; simp⟩, rfl, fun h => (ho h).elim, fun _ => rfl, fun d hd => ?_⟩
    rw [same_locate hn hg.pos hc hd, h]
    unfold gridRead
    simp only
    constructor
    · intro e
      rw [← e]
      simp only
      rw [if_pos h1, List.getElem?_set_self (by omega)]
    · intro e
      cases h' : topoLocate n wraps d g.dim with
      | none => rfl
      | some j =>
        obtain ⟨h3, h4⟩ := locate_range hn hg hd j h'
        simp only
        rw [if_pos h3, if_pos h3, List.getElem?_set_ne]
        intro hij
        apply e
        rw [h']
        congr 1
        omega

/-! ## streaks -/

/-- read a list of cells -/
def readAll (n : Nat) (wraps : Nat → Bool) (g : Grid α) : List Crd → Option (List α)
  | [] => some []
  | c :: cs => (gridRead n wraps g c).bind fun v => (readAll n wraps g cs).map fun r => v :: r

/-- write a list of cells, in order -/
def writeAll (n : Nat) (wraps : Nat → Bool) : List (Crd × α) → Grid α → Option (Grid α)
  | [], g => some g
  | w :: ws, g => (gridWrite n wraps g w.1 w.2).bind fun g => writeAll n wraps ws g

theorem readAll_append (g : Grid α) (a b : List Crd) :
    readAll n wraps g (a ++ b) = (readAll n wraps g a).bind fun x => (readAll n wraps g b).map fun y => x ++ y := by
  induction a with
  | nil => simp [readAll]
  | cons c a ih =>
    rw [List.cons_append, readAll, ih, readAll]
    cases gridRead n wraps g c with
    | none => rfl
    | some v =>
      cases readAll n wraps g a with
      | none => rfl
      | some x =>
        cases readAll n wraps g b <;> rfl

theorem writeAll_append (a b : List (Crd × α)) (g : Grid α) : writeAll n wraps (a ++ b) g = (writeAll n wraps a g).bind fun g => writeAll n wraps b g := by
  induction a generalizing g with
  | nil => rfl
  | cons w a ih =>
    rw [List.cons_append, writeAll, writeAll]
    cases gridWrite n wraps g w.1 w.2 with
    | none => rfl
    | some g' => exact ih g'

theorem readAll_length (g : Grid α) (a : List Crd) (l : List α) (h : readAll n wraps g a = some l) : l.length = a.length := by
  induction a generalizing l with
  | nil => cases h; rfl
  | cons c a ih =>
    rw [readAll] at h
    cases h1 : gridRead n wraps g c with
    | none => rw [h1] at h; cases h
    | some v =>
      rw [h1] at h
      cases h2 : readAll n wraps g a with
      | none => rw [h2] at h; cases h
      | some r =>
        rw [h2] at h
        cases h
        simp [ih r h2]

theorem readLoop_eq (g : Grid α) (s : Streak) (m : Nat) (x : Int) : readLoop n wraps g s.origin m x = readAll n wraps g (coordsFrom s m x) := by
  induction m generalizing x with
  | zero => rfl
  | succ m ih => rw [readLoop, coordsFrom, readAll, ih]

theorem coordsFrom_length (s : Streak) (m : Nat) (x : Int) : (coordsFrom s m x).length = m := by
  induction m generalizing x with
  | zero => rfl
  | succ m ih => rw [coordsFrom, List.length_cons, ih]

theorem coordsOf_length (s : Streak) : (coordsOf s).length = (s.endX - s.origin 0).toNat := coordsFrom_length _ _ _

theorem writeLoop_eq (s : Streak) (m : Nat) (x : Int) (src : List α) (g : Grid α) (h : m ≤ src.length) :
    writeLoop n wraps s.origin m x src g = writeAll n wraps ((coordsFrom s m x).zip src) g := by
  induction m generalizing x src g with
  | zero => rfl
  | succ m ih =>
    cases src with
    | nil => simp at h
    | cons v src =>
      rw [writeLoop, coordsFrom, List.zip_cons_cons, writeAll]
      simp only
      cases gridWrite n wraps g (upd s.origin 0 x) v with
      | none => rfl
      | some g' => exact ih (x + 1) src g' (by simpa using h)

theorem locate_inDim (hn : n ≤ 2) {dim c : Crd} (h : InDim n dim c) : topoLocate n wraps c dim = some (lin dim n 0 c) := by
  unfold topoLocate
  rw [if_neg (by rw [outOfBounds_iff]; exact not_outside_of_inDim h), toIndex_lin n hn]
  congr 1
  refine lin_congr dim n 0 _ _ (fun j _ hj => ?_)
  have := h j (by omega)
  unfold normEdges wrap1
  rw [if_neg (by omega), if_neg (by omega)]

theorem inBounds_iff {dim : Crd} (s : Streak) : streakInBounds n dim s = true ↔ InDim n dim s.origin ∧ s.endX ≤ dim 0 := by
  unfold streakInBounds
  rw [Bool.and_eq_true, decide_eq_true_eq, Bool.not_eq_true', Bool.eq_false_iff, ne_eq, outOfBounds_iff]
  constructor
  · rintro ⟨h1, h2⟩
    refine ⟨fun k hk => ?_, h2⟩
    by_contra hh
    exact h1 ⟨k, hk, rfl, hh⟩
  · rintro ⟨h1, h2⟩
    exact ⟨not_outside_of_inDim h1, h2⟩

theorem lin_upd (dim : Crd) (c : Crd) (x : Int) : lin dim n 0 (upd c 0 x) = lin dim n 0 c + (x - c 0) := by
  cases n with
  | zero => simp [lin, upd]
  | succ n =>
    rw [lin, lin, lin_congr dim n 1 (upd c 0 x) c (fun j hj _ => by unfold upd; rw [if_neg (by omega)])]
    simp [upd]
    ring

/-- linear indices of the cells of a streak in the grid -/
theorem streak_index (hn : n ≤ 2) {g : Grid α} (hg : GridOK n g) (s : Streak) (h : InDim n g.dim s.origin) (he : s.endX ≤ g.dim 0) (x : Int) (h1 : s.origin 0 ≤ x)
    (h2 : x < s.endX) : InDim n g.dim (upd s.origin 0 x) ∧ topoLocate n wraps (upd s.origin 0 x) g.dim = some (lin g.dim n 0 s.origin + (x - s.origin 0)) ∧
      0 ≤ lin g.dim n 0 s.origin + (x - s.origin 0) ∧ lin g.dim n 0 s.origin + (x - s.origin 0) < g.cells.length := by
  have hin : InDim n g.dim (upd s.origin 0 x) := by
    intro k hk
    have := h k hk
    unfold upd
    split
    · rename_i h; subst h; omega
    · exact this
  have e := locate_inDim (wraps := wraps) hn hin
  rw [lin_upd] at e
  exact ⟨hin, e, locate_range hn hg (onePeriod_of_inDim hin) _ e⟩

theorem readAll_contiguous (hn : n ≤ 2) {g : Grid α} (hg : GridOK n g) (s : Streak) (h : InDim n g.dim s.origin) (he : s.endX ≤ g.dim 0) (m : Nat) (x : Int)
    (h1 : s.origin 0 ≤ x) (h2 : x + m ≤ s.endX) :
    readAll n wraps g (coordsFrom s m x) = some ((g.cells.drop (lin g.dim n 0 s.origin + (x - s.origin 0)).toNat).take m) := by
  induction m generalizing x with
  | zero => rfl
  | succ m ih =>
    obtain ⟨_, e, h3, h4⟩ := streak_index (wraps := wraps) hn hg s h he x h1 (by omega)
    rw [coordsFrom, readAll, ih (x + 1) (by omega) (by omega)]
    have hr : gridRead n wraps g (upd s.origin 0 x) = some (g.cells[(lin g.dim n 0 s.origin + (x - s.origin 0)).toNat]'(by omega)) := by
      unfold gridRead
      rw [e]
      simp only
      rw [if_pos h3]
      exact List.getElem?_eq_getElem (by omega)
    rw [hr, Option.bind_some, Option.map_some]
    congr 1
    rw [List.drop_eq_getElem_cons (i := (lin g.dim n 0 s.origin + (x - s.origin 0)).toNat) (by omega), List.take_succ_cons]
    congr 3
    omega

/-- the streak-wise reader agrees with the cell-wise one -/
theorem getStreak_eq (hn : n ≤ 2) {g : Grid α} (hg : GridOK n g) (s : Streak) (hs : s.origin 0 ≤ s.endX) :
    gridGetStreak n wraps g s = readAll n wraps g (coordsOf s) := by
  unfold gridGetStreak coordsOf
  by_cases hb : streakInBounds n g.dim s = true
  · rw [if_pos hb]
    obtain ⟨h1, h2⟩ := (inBounds_iff s).mp hb
    rw [locate_inDim hn h1, readAll_contiguous hn hg s h1 h2 _ _ (le_refl _) (by omega)]
    simp only [Int.sub_self, Int.add_zero]
    have h3 := locate_range (wraps := wraps) hn hg (onePeriod_of_inDim h1) _ (locate_inDim hn h1)
    rw [if_pos]
    refine ⟨h3.1, hs, ?_⟩
    rcases Int.lt_or_eq_of_le hs with hlt | heq
    · have := (streak_index (wraps := wraps) hn hg s h1 h2 (s.endX - 1) (by omega) (by omega)).2.2.2
      omega
    · omega
  · rw [if_neg hb, readLoop_eq]

theorem writeAll_contiguous (hn : n ≤ 2) (g : Grid α) (hg : GridOK n g) (s : Streak) (h : InDim n g.dim s.origin) (he : s.endX ≤ g.dim 0) (m : Nat) (x : Int)
    (h1 : s.origin 0 ≤ x) (h2 : x + m ≤ s.endX) (src : List α) (hl : m ≤ src.length) :
    writeAll n wraps ((coordsFrom s m x).zip src) g =
      some { g with cells := g.cells.take (lin g.dim n 0 s.origin + (x - s.origin 0)).toNat ++ src.take m ++ g.cells.drop ((lin g.dim n 0 s.origin + (x - s.origin 0)).toNat + m) } := by
  induction m generalizing x src g with
  | zero => simp [coordsFrom, writeAll]
  | succ m ih =>
    cases src with
    | nil => simp at hl
    | cons v src =>
      obtain ⟨_, e, h3, h4⟩ := streak_index (wraps := wraps) hn hg s h he x h1 (by omega)
      rw [coordsFrom, List.zip_cons_cons, writeAll]
      have hw : gridWrite n wraps g (upd s.origin 0 x) v = some { g with cells := g.cells.set (lin g.dim n 0 s.origin + (x - s.origin 0)).toNat v } := by
        unfold gridWrite
        rw [e]
        simp only
        rw [if_pos ⟨h3, h4⟩]
      simp only
      rw [hw, Option.bind_some, ih { g with cells := g.cells.set (lin g.dim n 0 s.origin + (x - s.origin 0)).toNat v } ⟨hg.pos, by rw [← hg.size]; simp⟩ h he (x + 1)
        (by omega) (by omega) src (by simpa using hl)]
      simp only
      have e1 : (lin g.dim n 0 s.origin + (x + 1 - s.origin 0)).toNat = (lin g.dim n 0 s.origin + (x - s.origin 0)).toNat + 1 := by omega
      rw [e1]
      generalize hp : (lin g.dim n 0 s.origin + (x - s.origin 0)).toNat = p
      have hpl : p < g.cells.length := by omega
      congr 2
      rw [List.take_succ_cons, show p + 1 + m = p + (m + 1) by omega]
      have a1 : (g.cells.set p v).take (p + 1) = g.cells.take p ++ [v] := by
        rw [List.take_add_one, List.getElem?_set_self hpl, List.take_set_of_le (le_refl _)]
        rfl
      have a2 : (g.cells.set p v).drop (p + (m + 1)) = g.cells.drop (p + (m + 1)) := List.drop_set_of_lt (by omega)
      rw [a1, a2]
      simp

/-- the streak-wise writer agrees with the cell-wise one -/
theorem setStreak_eq (hn : n ≤ 2) {g : Grid α} (hg : GridOK n g) (s : Streak) (hs : s.origin 0 ≤ s.endX) (src : List α) (hl : s.endX - s.origin 0 ≤ src.length) :
    gridSetStreak n wraps g s src = writeAll n wraps ((coordsOf s).zip src) g := by
  unfold gridSetStreak coordsOf
  by_cases hb : streakInBounds n g.dim s = true
  · rw [if_pos hb]
    obtain ⟨h1, h2⟩ := (inBounds_iff s).mp hb
    rw [locate_inDim hn h1, writeAll_contiguous hn g hg s h1 h2 _ _ (le_refl _) (by omega) src (by omega)]
    simp only [Int.sub_self, Int.add_zero]
    have h3 := locate_range (wraps := wraps) hn hg (onePeriod_of_inDim h1) _ (locate_inDim hn h1)
    rw [if_pos]
    refine ⟨h3.1, hs, ?_, hl⟩
    rcases Int.lt_or_eq_of_le hs with hlt | heq
    · have := (streak_index (wraps := wraps) hn hg s h1 h2 (s.endX - 1) (by omega) (by omega)).2.2.2
      omega
    · omega
  · rw [if_neg hb, writeLoop_eq s _ _ _ _ (by omega)]

theorem writeAll_ok (hn : n ≤ 2) (ws : List (Crd × α)) : ∀ (g : Grid α), GridOK n g → (∀ w ∈ ws, OnePeriod n wraps g.dim w.1) →
    ∃ g', writeAll n wraps ws g = some g' ∧ GridOK n g' ∧ g'.dim = g.dim := by
  induction ws with
  | nil => intro g hg _; exact ⟨g, rfl, hg, rfl⟩
  | cons w ws ih =>
    intro g hg hw
    obtain ⟨g1, e1, h1, h2, _⟩ := write_spec hn hg (hw w (List.mem_cons_self ..)) w.2
    obtain ⟨g2, e2, h3, h4⟩ := ih g1 h1 (fun w' hw' => by rw [h2]; exact hw w' (List.mem_cons_of_mem _ hw'))
    exact ⟨g2, by rw [writeAll, e1, Option.bind_some, e2], h3, by rw [h4, h2]⟩

/-! ## regions -/

theorem saveLoop_eq (hn : n ≤ 2) {g : Grid α} (hg : GridOK n g) (ss : List Streak) : ∀ (b : List α) (p : Nat), (∀ s ∈ ss, s.origin 0 ≤ s.endX) →
    (∀ c ∈ ss.flatMap coordsOf, OnePeriod n wraps g.dim c) → p + (ss.flatMap coordsOf).length ≤ b.length →
    ∃ l, readAll n wraps g (ss.flatMap coordsOf) = some l ∧ saveLoop n wraps g ss b p = some (b.take p ++ l ++ b.drop (p + l.length)) := by
  induction ss with
  | nil => intro b p _ _ _; exact ⟨[], rfl, by simp [saveLoop]⟩
  | cons s ss ih =>
    intro b p hs hc hl
    rw [List.flatMap_cons] at hc hl ⊢
    have hall : ∀ (cs : List Crd), (∀ c ∈ cs, OnePeriod n wraps g.dim c) → ∃ l, readAll n wraps g cs = some l := by
      intro cs
      induction cs with
      | nil => intro _; exact ⟨[], rfl⟩
      | cons c cs ihc =>
        intro h
        obtain ⟨v, e⟩ := read_some hn hg (h c (List.mem_cons_self ..))
        obtain ⟨l, e'⟩ := ihc (fun c hc => h c (List.mem_cons_of_mem _ hc))
        exact ⟨v :: l, by rw [readAll, e, e']; rfl⟩
    obtain ⟨l1, e1⟩ := hall (coordsOf s) (fun c h => hc c (List.mem_append_left _ h))
    have hlen := readAll_length g _ _ e1
    have hb' : (b.take p ++ l1 ++ b.drop (p + l1.length)).length = b.length := by
      rw [List.length_append] at hl
      simp
      omega
    obtain ⟨l2, e2, e3⟩ := ih (b.take p ++ l1 ++ b.drop (p + l1.length)) (p + l1.length) (fun s hs' => hs s (List.mem_cons_of_mem _ hs'))
      (fun c h => hc c (List.mem_append_right _ h)) (by rw [hb']; rw [List.length_append] at hl; omega)
    refine ⟨l1 ++ l2, by rw [readAll_append, e1, e2]; rfl, ?_⟩
    rw [saveLoop, getStreak_eq hn hg s (hs s (List.mem_cons_self ..)), e1, Option.bind_some]
    rw [List.length_append] at hl
    rw [if_pos (by omega), show (s.endX - s.origin 0).toNat = l1.length by rw [hlen, coordsOf_length], e3]
    congr 1
    have hp : (b.take p).length = p := by simp; omega
    have t1 : (b.take p ++ l1 ++ b.drop (p + l1.length)).take (p + l1.length) = b.take p ++ l1 := by
      rw [List.take_append_of_le_length (by simp; omega), List.take_of_length_le (by simp)]
    have t2 : (b.take p ++ l1 ++ b.drop (p + l1.length)).drop (p + l1.length + l2.length) = b.drop (p + l1.length + l2.length) := by
      rw [List.drop_append, List.drop_of_length_le (by simp; omega), List.nil_append, List.length_append, hp, List.drop_drop]
      congr 1
      omega
    rw [t1, t2]
    simp [Nat.add_assoc]

theorem loadLoop_eq (hn : n ≤ 2) (ss : List Streak) : ∀ (b : List α) (g : Grid α), GridOK n g → (∀ s ∈ ss, s.origin 0 ≤ s.endX) →
    (∀ c ∈ ss.flatMap coordsOf, OnePeriod n wraps g.dim c) → (ss.flatMap coordsOf).length ≤ b.length →
    loadLoop n wraps ss b g = writeAll n wraps ((ss.flatMap coordsOf).zip b) g := by
  induction ss with
  | nil => intro b g _ _ _ _; rfl
  | cons s ss ih =>
    intro b g hg hs hc hl
    rw [List.flatMap_cons] at hc hl ⊢
    rw [List.length_append] at hl
    have hlen := coordsOf_length s
    have hs0 := hs s (List.mem_cons_self ..)
    rw [loadLoop, setStreak_eq hn hg s hs0 b (by omega)]
    have hz : (coordsOf s ++ ss.flatMap coordsOf).zip b = (coordsOf s).zip b ++ (ss.flatMap coordsOf).zip (b.drop (coordsOf s).length) := by
      conv_lhs => rw [← List.take_append_drop (coordsOf s).length b]
      rw [List.zip_append (by simp; omega)]
      congr 1
      conv_rhs => rw [← List.take_append_drop (coordsOf s).length b]
      conv_rhs => rw [← List.append_nil (coordsOf s)]
      rw [List.zip_append (by simp; omega)]
      simp
    rw [hz, writeAll_append]
    obtain ⟨g1, e1, h1, h2⟩ := writeAll_ok hn ((coordsOf s).zip b) g hg (fun w hw => hc w.1 (List.mem_append_left _ (List.of_mem_zip hw).1))
    rw [e1, Option.bind_some, Option.bind_some, ← hlen]
    exact ih _ g1 h1 (fun s hs' => hs s (List.mem_cons_of_mem _ hs')) (fun c h => by rw [h2]; exact hc c (List.mem_append_right _ h)) (by rw [List.length_drop]; omega)

end LGD.Store
