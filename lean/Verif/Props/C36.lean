import Verif.Store.ContainerModel
import Verif.Props.C12
import Mathlib.Data.List.Perm.Subperm

/-!
# C36: `ContainerCell`

Specification: a partial map from keys to values which holds at most `size` keys.
-/

namespace LGD.C36
open LGD.CCell

variable {K α : Type} [LinearOrder K]

/-! ## specification -/

/-- operations: insert, remove, clear, and assignment through the pointer returned by `operator[]` (if it isn't null) -/
inductive Op (K α : Type) where
  | insert (k : K) (v : α)
  | remove (k : K)
  | clear
  | assign (k : K) (v : α)

/-- what the caller observes: an exception, or a returned flag (`true` for functions returning `void`) -/
inductive Out where
  | thrown
  | done (b : Bool)
  deriving DecidableEq

/-- the map holds `size` different keys -/
def Full (size : Nat) (m : K → Option α) : Prop := ∃ ks : List K, ks.Nodup ∧ ks.length = size ∧ ∀ k ∈ ks, m k ≠ none

/-- the map with one key changed -/
def put1 (m : K → Option α) (k : K) (v : Option α) : K → Option α := fun k' => if k' = k then v else m k'

/-- one operation -/
def Step (size : Nat) (m : K → Option α) (op : Op K α) (out : Out) (m' : K → Option α) : Prop :=
  match op with
  | .insert k v => (m k = none ∧ Full size m → out = .thrown ∧ m' = m) ∧ (¬ (m k = none ∧ Full size m) → out = .done true ∧ m' = put1 m k (some v))
  | .remove k => out = .done (m k).isSome ∧ m' = put1 m k none
  | .clear => out = .done true ∧ m' = fun _ => none
  | .assign k v => out = .done true ∧ m' = put1 m k ((m k).map fun _ => v)

/-- a history of operations -/
inductive History (size : Nat) : (K → Option α) → List (Op K α) → List Out → (K → Option α) → Prop where
  | nil (m) : History size m [] [] m
  | cons {m op out m' ops outs m''} : Step size m op out m' → History size m' ops outs m'' → History size m (op :: ops) (out :: outs) m''

/-- what can be observed of a container which holds the map `m`: lookups, and the pairs visited by iteration, which are in ascending order of the (unique) keys -/
structure Shows (size : Nat) (c : CC K α) (m : K → Option α) : Prop where
  find : ∀ k, lookup c k = some (m k)
  iter : ∃ l : List (K × α), l.Pairwise (fun a b => a.1 < b.1) ∧ (∀ k v, (k, v) ∈ l ↔ m k = some v) ∧ l.length ≤ size ∧ c.num = l.length ∧
    iterate c = l.map (fun p => some p.2) ∧ idList c = l.map (fun p => some p.1)

/-! ## the code -/

/-- an operation of the code -/
def exec (c : CC K α) : Op K α → Option (Out × CC K α)
  | .insert k v => (CCell.insert c k v).map fun r => (if r.1 then .thrown else .done true, r.2)
  | .remove k => (CCell.remove c k).map fun r => (.done r.1, r.2)
  | .clear => some (.done true, CCell.clear c)
  | .assign k v => (CCell.assign c k v).map fun r => (if r.1 then .thrown else .done true, r.2)

/-- a history of operations -/
def run : List (Op K α) → CC K α → Option (List Out × CC K α)
  | [], c => some ([], c)
  | op :: ops, c => (exec c op).bind fun r => (run ops r.2).map fun s => (r.1 :: s.1, s.2)

/-! ## proof -/

/-- the invariant: `l` holds the pairs in the first `num` positions, sorted -/
structure Inv (size : Nat) (c : CC K α) (l : List (K × α)) : Prop where
  lid : c.ids.length = size
  lce : c.cells.length = size
  num : c.num = l.length
  le : l.length ≤ size
  sorted : l.Pairwise (fun a b => a.1 < b.1)
  hid : c.ids.take c.num = l.map Prod.fst
  hce : c.cells.take c.num = l.map Prod.snd

/-- the map of a sorted list -/
def mapOf (l : List (K × α)) (k : K) : Option α := (l.find? (fun p => decide (p.1 = k))).map Prod.snd

theorem mapOf_iff {l : List (K × α)} (h : l.Pairwise (fun a b => a.1 < b.1)) (k : K) (v : α) : mapOf l k = some v ↔ (k, v) ∈ l := by
  induction l with
  | nil => simp [mapOf]
  | cons p l ih =>
    rw [List.pairwise_cons] at h
    have ih := ih h.2
    unfold mapOf at ih ⊢
    rw [List.find?_cons]
    by_cases e : p.1 = k
    · simp only [e, decide_true, Option.map_some, Option.some.injEq]
      constructor
      · intro hv; rw [← e, ← hv]; exact List.mem_cons_self
      · intro hm
        rw [List.mem_cons] at hm
        rcases hm with rfl | hm
        · rfl
        · have := h.1 _ hm
          rw [e] at this
          exact absurd this (lt_irrefl _)
    · simp only [e, decide_false]
      rw [ih, List.mem_cons]
      constructor
      · exact Or.inr
      · rintro (rfl | hm)
        · exact absurd rfl e
        · exact hm

theorem mapOf_none {l : List (K × α)} (k : K) : mapOf l k = none ↔ ∀ p ∈ l, p.1 ≠ k := by
  unfold mapOf
  rw [Option.map_eq_none_iff, List.find?_eq_none]
  simp

/-- a sorted list splits at the upper bound -/
theorem split_at {l : List (K × α)} (h : l.Pairwise (fun a b => a.1 < b.1)) (k : K) :
    ∃ a b, l = a ++ b ∧ ((l.map Prod.fst).takeWhile (fun x => !decide (k < x))).length = a.length ∧ (∀ p ∈ a, p.1 ≤ k) ∧ ∀ p ∈ b, k < p.1 := by
  induction l with
  | nil => exact ⟨[], [], rfl, rfl, by simp, by simp⟩
  | cons p l ih =>
    rw [List.pairwise_cons] at h
    by_cases e : k < p.1
    · refine ⟨[], p :: l, rfl, by simp [e], by simp, fun q hq => ?_⟩
      rw [List.mem_cons] at hq
      rcases hq with rfl | hq
      · exact e
      · exact lt_trans e (h.1 _ hq)
    · obtain ⟨a, b, h1, h2, h3, h4⟩ := ih h.2
      refine ⟨p :: a, b, by rw [h1]; rfl, ?_, fun q hq => ?_, h4⟩
      · simp only [List.map_cons, List.takeWhile_cons, e, decide_false, Bool.not_false, if_true, List.length_cons, h2]
      · rw [List.mem_cons] at hq
        rcases hq with rfl | hq
        · exact not_lt.1 e
        · exact h3 _ hq

/-- positions of an invariant -/
theorem Inv.ids_at {size : Nat} {c : CC K α} {l : List (K × α)} (h : Inv size c l) (i : Nat) (hi : i < l.length) : c.ids[i]? = some (l[i]).1 := by
  have := congrArg (fun x => x[i]?) h.hid
  simp only [List.getElem?_map, List.getElem?_eq_getElem hi, Option.map_some] at this
  rw [List.getElem?_take_of_lt (by rw [h.num]; exact hi)] at this
  exact this

theorem Inv.cells_at {size : Nat} {c : CC K α} {l : List (K × α)} (h : Inv size c l) (i : Nat) (hi : i < l.length) : c.cells[i]? = some (l[i]).2 := by
  have := congrArg (fun x => x[i]?) h.hce
  simp only [List.getElem?_map, List.getElem?_eq_getElem hi, Option.map_some] at this
  rw [List.getElem?_take_of_lt (by rw [h.num]; exact hi)] at this
  exact this

/-- the result of `operator[]` -/
theorem find_spec {size : Nat} {c : CC K α} {l : List (K × α)} (h : Inv size c l) (k : K) :
    (∃ a v b, l = a ++ (k, v) :: b ∧ find c k = some (some a.length) ∧ CCell.upperBound c k = a.length + 1) ∨
    (∃ a b, l = a ++ b ∧ find c k = some none ∧ CCell.upperBound c k = a.length ∧ (∀ p ∈ a, p.1 < k) ∧ ∀ p ∈ b, k < p.1) := by
  obtain ⟨a, b, h1, h2, h3, h4⟩ := split_at h.sorted k
  have hu : CCell.upperBound c k = a.length := by unfold CCell.upperBound; rw [h.hid]; exact h2
  rcases List.eq_nil_or_concat a with rfl | ⟨a0, p, rfl⟩
  · right
    refine ⟨[], b, h1, ?_, hu, by simp, h4⟩
    unfold find
    simp only [hu, List.length_nil, if_true]
  · simp only [List.concat_eq_append] at *
    rw [List.length_append, List.length_singleton] at hu
    have hat : c.ids[a0.length]? = some p.1 := by
      rw [h.ids_at a0.length (by rw [h1]; simp)]
      simp only [h1, List.append_assoc, List.getElem_append_right (Nat.le_refl _), Nat.sub_self]
      simp
    have hf : find c k = if p.1 = k then some (some a0.length) else some none := by
      unfold find
      simp only [hu, Nat.add_one_ne_zero, if_false, Nat.add_sub_cancel, hat]
    by_cases e : p.1 = k
    · left
      refine ⟨a0, p.2, b, ?_, by rw [hf, if_pos e], hu⟩
      rw [h1, ← e]; simp
    · right
      refine ⟨a0 ++ [p], b, h1, by rw [hf, if_neg e], by simpa using hu, fun q hq => ?_, h4⟩
      have hs := h.sorted
      rw [h1, List.pairwise_append, List.pairwise_append] at hs
      have hpk : p.1 < k := lt_of_le_of_ne (h3 p (by simp)) e
      rw [List.mem_append, List.mem_singleton] at hq
      rcases hq with hq | rfl
      · exact lt_trans (hs.1.2.2 q hq p (by simp)) hpk
      · exact hpk

theorem shows_of_inv {size : Nat} {c : CC K α} {l : List (K × α)} (h : Inv size c l) : Shows size c (mapOf l) := by
  constructor
  · intro k
    rcases find_spec h k with ⟨a, v, b, h1, h2, _⟩ | ⟨a, b, h1, h2, _, h3, h4⟩
    · unfold lookup
      rw [h2]
      simp only
      rw [h.cells_at a.length (by rw [h1]; simp)]
      have : mapOf l k = some v := (mapOf_iff h.sorted k v).2 (by rw [h1]; simp)
      rw [this]
      simp only [h1, List.getElem_append_right (Nat.le_refl _), Nat.sub_self, List.getElem_cons_zero, Option.map_some]
    · unfold lookup
      rw [h2]
      simp only [Option.some.injEq]
      symm
      rw [mapOf_none]
      intro p hp e
      rw [h1, List.mem_append] at hp
      rcases hp with hp | hp
      · exact absurd (h3 p hp) (by rw [e]; exact lt_irrefl _)
      · exact absurd (h4 p hp) (by rw [e]; exact lt_irrefl _)
  · refine ⟨l, h.sorted, fun k v => (mapOf_iff h.sorted k v).symm, h.le, h.num, ?_, ?_⟩
    · unfold iterate
      apply List.ext_getElem (by simp [h.num])
      intro i h1 h2
      simp only [List.length_map, List.length_range] at h1
      simp only [List.getElem_map, List.getElem_range]
      exact h.cells_at i (by rw [← h.num]; exact h1)
    · unfold idList
      apply List.ext_getElem (by simp [h.num])
      intro i h1 h2
      simp only [List.length_map, List.length_range] at h1
      simp only [List.getElem_map, List.getElem_range]
      exact h.ids_at i (by rw [← h.num]; exact h1)

/-- the effect of the loop in `insert` -/
theorem shiftUp_spec (m : Nat) : ∀ (off : Nat) (ids : List K) (cells : List α), off + m < ids.length → off + m < cells.length →
    ∃ ids' cells', shiftUp m (off + m) ids cells = some (ids', cells') ∧ ids'.length = ids.length ∧ cells'.length = cells.length ∧
      (∀ j, ids'[j]? = if off < j ∧ j ≤ off + m then ids[j - 1]? else ids[j]?) ∧ ∀ j, cells'[j]? = if off < j ∧ j ≤ off + m then cells[j - 1]? else cells[j]? := by
  induction m with
  | zero =>
    intro off ids cells _ _
    refine ⟨ids, cells, rfl, rfl, rfl, fun j => ?_, fun j => ?_⟩ <;> rw [if_neg (by omega)]
  | succ m ih =>
    intro off ids cells h1 h2
    obtain ⟨i1, c1, e1, l1, l2, a1, a2⟩ := ih off (ids.set (off + (m + 1)) (ids[off + m])) (cells.set (off + (m + 1)) (cells[off + m]))
      (by rw [List.length_set]; omega) (by rw [List.length_set]; omega)
    refine ⟨i1, c1, ?_, by simpa using l1, by simpa using l2, fun j => ?_, fun j => ?_⟩
    · simp only [shiftUp, show off + (m + 1) - 1 = off + m by omega, List.getElem?_eq_getElem (show off + m < ids.length by omega),
        List.getElem?_eq_getElem (show off + m < cells.length by omega)]
      rw [if_pos ⟨h2, h1⟩]
      exact e1
    · rw [a1]
      by_cases c1 : j = off + (m + 1)
      · subst c1
        rw [if_neg (by omega), if_pos (by omega), List.getElem?_set_self h1, show off + (m + 1) - 1 = off + m by omega, List.getElem?_eq_getElem]
      · by_cases c2 : off < j ∧ j ≤ off + m
        · rw [if_pos c2, if_pos (by omega), List.getElem?_set_ne (by omega)]
        · rw [if_neg c2, if_neg (by omega), List.getElem?_set_ne (by omega)]
    · rw [a2]
      by_cases c1 : j = off + (m + 1)
      · subst c1
        rw [if_neg (by omega), if_pos (by omega), List.getElem?_set_self h2, show off + (m + 1) - 1 = off + m by omega, List.getElem?_eq_getElem]
      · by_cases c2 : off < j ∧ j ≤ off + m
        · rw [if_pos c2, if_pos (by omega), List.getElem?_set_ne (by omega)]
        · rw [if_neg c2, if_neg (by omega), List.getElem?_set_ne (by omega)]

/-- the effect of the loop in `remove` -/
theorem shiftDown_spec (m : Nat) : ∀ (i : Nat) (ids : List K) (cells : List α), i + m < ids.length → i + m < cells.length →
    ∃ ids' cells', shiftDown m i ids cells = some (ids', cells') ∧ ids'.length = ids.length ∧ cells'.length = cells.length ∧
      (∀ j, ids'[j]? = if i ≤ j ∧ j < i + m then ids[j + 1]? else ids[j]?) ∧ ∀ j, cells'[j]? = if i ≤ j ∧ j < i + m then cells[j + 1]? else cells[j]? := by
  induction m with
  | zero =>
    intro i ids cells _ _
    refine ⟨ids, cells, rfl, rfl, rfl, fun j => ?_, fun j => ?_⟩ <;> rw [if_neg (by omega)]
  | succ m ih =>
    intro i ids cells h1 h2
    obtain ⟨i1, c1, e1, l1, l2, a1, a2⟩ := ih (i + 1) (ids.set i (ids[i + 1])) (cells.set i (cells[i + 1]))
      (by rw [List.length_set]; omega) (by rw [List.length_set]; omega)
    refine ⟨i1, c1, ?_, by simpa using l1, by simpa using l2, fun j => ?_, fun j => ?_⟩
    · simp only [shiftDown, List.getElem?_eq_getElem (show i + 1 < ids.length by omega),
        List.getElem?_eq_getElem (show i + 1 < cells.length by omega)]
      rw [if_pos ⟨by omega, by omega⟩]
      exact e1
    · rw [a1]
      by_cases c1 : j = i
      · subst c1
        rw [if_neg (by omega), if_pos (by omega), List.getElem?_set_self (by omega), List.getElem?_eq_getElem]
      · by_cases c2 : i + 1 ≤ j ∧ j < i + 1 + m
        · rw [if_pos c2, if_pos (by omega), List.getElem?_set_ne (by omega)]
        · rw [if_neg c2, if_neg (by omega), List.getElem?_set_ne (by omega)]
    · rw [a2]
      by_cases c1 : j = i
      · subst c1
        rw [if_neg (by omega), if_pos (by omega), List.getElem?_set_self (by omega), List.getElem?_eq_getElem]
      · by_cases c2 : i + 1 ≤ j ∧ j < i + 1 + m
        · rw [if_pos c2, if_pos (by omega), List.getElem?_set_ne (by omega)]
        · rw [if_neg c2, if_neg (by omega), List.getElem?_set_ne (by omega)]

theorem ext_take {β : Type} {x : List β} {y : List β} (hl : y.length ≤ x.length) (h : ∀ j, j < y.length → x[j]? = y[j]?) : x.take y.length = y := by
  apply List.ext_getElem?
  intro j
  rw [List.getElem?_take]
  by_cases hj : j < y.length
  · rw [if_pos hj, h j hj]
  · rw [if_neg hj, List.getElem?_eq_none (by omega)]

theorem inv_at {size : Nat} {ids : List K} {cells : List α} {l : List (K × α)} (h1 : ids.length = size) (h2 : cells.length = size) (h3 : l.length ≤ size)
    (h4 : l.Pairwise (fun a b => a.1 < b.1)) (h5 : ∀ j, j < l.length → ids[j]? = (l[j]?).map Prod.fst) (h6 : ∀ j, j < l.length → cells[j]? = (l[j]?).map Prod.snd) :
    Inv size ⟨ids, cells, l.length⟩ l := by
  refine ⟨h1, h2, rfl, h3, h4, ?_, ?_⟩
  · have := ext_take (x := ids) (y := l.map Prod.fst) (by simpa [h1] using h3) (fun j hj => by rw [List.getElem?_map]; exact h5 j (by simpa using hj))
    simpa using this
  · have := ext_take (x := cells) (y := l.map Prod.snd) (by simpa [h2] using h3) (fun j hj => by rw [List.getElem?_map]; exact h6 j (by simpa using hj))
    simpa using this

theorem Inv.id? {size : Nat} {c : CC K α} {l : List (K × α)} (h : Inv size c l) (j : Nat) (hj : j < l.length) : c.ids[j]? = (l[j]?).map Prod.fst := by
  rw [h.ids_at j hj, List.getElem?_eq_getElem hj]; rfl

theorem Inv.cell? {size : Nat} {c : CC K α} {l : List (K × α)} (h : Inv size c l) (j : Nat) (hj : j < l.length) : c.cells[j]? = (l[j]?).map Prod.snd := by
  rw [h.cells_at j hj, List.getElem?_eq_getElem hj]; rfl

theorem insertNew_full {size : Nat} {c : CC K α} {l : List (K × α)} (h : Inv size c l) (k : K) (v : α) (off : Nat) (hf : l.length = size) :
    insertNew c k v off = some (true, c) := by
  unfold insertNew
  rw [if_pos (by rw [h.num, h.lid, hf])]

theorem mid {β : Type} (a b : List β) (x : β) (j : Nat) : (a ++ x :: b)[j]? = if j < a.length then a[j]? else if j = a.length then some x else b[j - a.length - 1]? := by
  by_cases h1 : j < a.length
  · rw [if_pos h1, List.getElem?_append_left h1]
  · rw [if_neg h1, List.getElem?_append_right (by omega)]
    by_cases h2 : j = a.length
    · rw [if_pos h2, h2]; simp
    · rw [if_neg h2, show j - a.length = (j - a.length - 1) + 1 by omega, List.getElem?_cons_succ]
      simp

theorem insertNew_ok {size : Nat} {c : CC K α} {a b : List (K × α)} (h : Inv size c (a ++ b)) (k : K) (v : α) (ha : ∀ p ∈ a, p.1 < k) (hb : ∀ p ∈ b, k < p.1)
    (hf : (a ++ b).length < size) : ∃ c', insertNew c k v a.length = some (false, c') ∧ Inv size c' (a ++ (k, v) :: b) := by
  have hnum := h.num
  have hs := h.sorted
  rw [List.pairwise_append] at hs
  have hsort : (a ++ (k, v) :: b).Pairwise (fun a b => a.1 < b.1) := by
    rw [List.pairwise_append, List.pairwise_cons]
    refine ⟨hs.1, ⟨hb, hs.2.1⟩, fun x hx y hy => ?_⟩
    rw [List.mem_cons] at hy
    rcases hy with rfl | hy
    · exact ha x hx
    · exact hs.2.2 x hx y hy
  have hlen : (a ++ (k, v) :: b).length = (a ++ b).length + 1 := by simp only [List.length_append, List.length_cons]; omega
  have hab : (a ++ b).length = a.length + b.length := List.length_append
  unfold insertNew
  rw [if_neg (by rw [h.num, h.lid]; omega)]
  by_cases he : a.length = c.num
  · rw [if_pos he]
    unfold put
    rw [if_pos ⟨by rw [h.lce]; omega, by rw [h.lid]; omega⟩, hnum, ← hlen]
    have hb0 : b = [] := List.eq_nil_of_length_eq_zero (by omega)
    subst hb0
    refine ⟨_, rfl, inv_at (by rw [List.length_set, h.lid]) (by rw [List.length_set, h.lce]) (by omega) hsort (fun j hj => ?_) (fun j hj => ?_)⟩
    · rw [mid]
      by_cases c1 : j < a.length
      · rw [if_pos c1, List.getElem?_set_ne (by omega), h.id? j (by omega), List.append_nil]
      · rw [if_neg c1, if_pos (by omega), show j = (a ++ ([] : List (K × α))).length by omega, List.getElem?_set_self (by rw [h.lid]; omega)]; rfl
    · rw [mid]
      by_cases c1 : j < a.length
      · rw [if_pos c1, List.getElem?_set_ne (by omega), h.cell? j (by omega), List.append_nil]
      · rw [if_neg c1, if_pos (by omega), show j = (a ++ ([] : List (K × α))).length by omega, List.getElem?_set_self (by rw [h.lce]; omega)]; rfl
  · rw [if_neg he]
    obtain ⟨ids', cells', e1, l1, l2, a1, a2⟩ := shiftUp_spec (c.num - a.length) a.length c.ids c.cells (by rw [h.lid]; omega) (by rw [h.lce]; omega)
    rw [show a.length + (c.num - a.length) = c.num by omega] at e1
    rw [e1]
    simp only
    unfold put
    simp only
    rw [if_pos ⟨by rw [l2, h.lce]; omega, by rw [l1, h.lid]; omega⟩, hnum, ← hlen]
    refine ⟨_, rfl, inv_at (by rw [List.length_set, l1, h.lid]) (by rw [List.length_set, l2, h.lce]) (by omega) hsort (fun j hj => ?_) (fun j hj => ?_)⟩
    · rw [mid]
      by_cases c1 : j < a.length
      · rw [if_pos c1, List.getElem?_set_ne (by omega), a1, if_neg (by omega), h.id? j (by omega), List.getElem?_append_left c1]
      · rw [if_neg c1]
        by_cases c2 : j = a.length
        · rw [if_pos c2, c2, List.getElem?_set_self (by rw [l1, h.lid]; omega)]; rfl
        · rw [if_neg c2, List.getElem?_set_ne (by omega), a1, if_pos (by omega), h.id? (j - 1) (by omega), List.getElem?_append_right (by omega),
            show j - 1 - a.length = j - a.length - 1 by omega]
    · rw [mid]
      by_cases c1 : j < a.length
      · rw [if_pos c1, List.getElem?_set_ne (by omega), a2, if_neg (by omega), h.cell? j (by omega), List.getElem?_append_left c1]
      · rw [if_neg c1]
        by_cases c2 : j = a.length
        · rw [if_pos c2, c2, List.getElem?_set_self (by rw [l2, h.lce]; omega)]; rfl
        · rw [if_neg c2, List.getElem?_set_ne (by omega), a2, if_pos (by omega), h.cell? (j - 1) (by omega), List.getElem?_append_right (by omega),
            show j - 1 - a.length = j - a.length - 1 by omega]

/-- replacing a value -/
theorem replace_ok {size : Nat} {c : CC K α} {a b : List (K × α)} {k : K} {w : α} (h : Inv size c (a ++ (k, w) :: b)) (v : α) :
    a.length < c.cells.length ∧ Inv size { c with cells := c.cells.set a.length v } (a ++ (k, v) :: b) := by
  have hle := h.le
  have hnum := h.num
  have e1 : (a ++ (k, w) :: b).length = (a ++ (k, v) :: b).length := by simp
  have e2 : (a ++ (k, w) :: b).length = a.length + b.length + 1 := by simp only [List.length_append, List.length_cons]; omega
  have hs := h.sorted
  refine ⟨by rw [h.lce]; omega, ?_⟩
  have hsort : (a ++ (k, v) :: b).Pairwise (fun a b => a.1 < b.1) := by
    rw [List.pairwise_append, List.pairwise_cons] at hs ⊢
    refine ⟨hs.1, hs.2.1, fun x hx y hy => ?_⟩
    rw [List.mem_cons] at hy
    rcases hy with rfl | hy
    · exact hs.2.2 x hx (k, w) (by simp)
    · exact hs.2.2 x hx y (List.mem_cons_of_mem _ hy)
  have := inv_at (ids := c.ids) (cells := c.cells.set a.length v) (l := a ++ (k, v) :: b) h.lid (by rw [List.length_set, h.lce]) (by omega) hsort
    (fun j hj => ?_) (fun j hj => ?_)
  · rw [← e1, ← hnum] at this
    exact this
  · rw [h.id? j (by omega), mid, mid]
    split
    · rfl
    · split <;> rfl
  · rw [mid]
    by_cases c1 : j = a.length
    · subst c1
      rw [if_neg (by omega), if_pos rfl, List.getElem?_set_self (by rw [h.lce]; omega)]; rfl
    · rw [List.getElem?_set_ne (by omega), h.cell? j (by omega), mid]
      by_cases c2 : j < a.length
      · rw [if_pos c2, if_pos c2]
      · rw [if_neg c2, if_neg c2, if_neg c1, if_neg c1]

theorem mapOf_put {a b : List (K × α)} {k : K} (v : α) {l : List (K × α)} (hl : l = a ++ b ∨ ∃ w, l = a ++ (k, w) :: b) (hs : l.Pairwise (fun a b => a.1 < b.1))
    (hs' : (a ++ (k, v) :: b).Pairwise (fun a b => a.1 < b.1)) : mapOf (a ++ (k, v) :: b) = put1 (mapOf l) k (some v) := by
  funext k'
  apply Option.ext
  intro x
  rw [mapOf_iff hs']
  unfold put1
  by_cases e : k' = k
  · subst e
    rw [if_pos rfl]
    have hk := (mapOf_iff hs' k' v).2 (by simp)
    rw [← mapOf_iff hs', hk]
  · rw [if_neg e, mapOf_iff hs]
    rcases hl with rfl | ⟨w, rfl⟩ <;> simp only [List.mem_append, List.mem_cons, Prod.mk.injEq, e, false_and, false_or]

/-- the map is full iff the list is -/
theorem full_iff {size : Nat} {l : List (K × α)} (hs : l.Pairwise (fun a b => a.1 < b.1)) (hle : l.length ≤ size) : Full size (mapOf l) ↔ l.length = size := by
  constructor
  · rintro ⟨ks, h1, h2, h3⟩
    have : ks.Subperm (l.map Prod.fst) := by
      apply List.subperm_of_subset h1
      intro k hk
      have := h3 k hk
      obtain ⟨v, hv⟩ := Option.ne_none_iff_exists'.1 this
      rw [mapOf_iff hs] at hv
      exact List.mem_map.2 ⟨_, hv, rfl⟩
    have := this.length_le
    rw [List.length_map] at this
    omega
  · intro h
    refine ⟨l.map Prod.fst, ?_, by simpa using h, fun k hk => ?_⟩
    · rw [List.Nodup, List.pairwise_map]
      exact hs.imp (fun h => ne_of_lt h)
    · obtain ⟨p, hp, rfl⟩ := List.mem_map.1 hk
      rw [(mapOf_iff hs p.1 p.2).2 hp]
      simp

theorem insert_eq {size : Nat} {c : CC K α} {l : List (K × α)} (h : Inv size c l) (k : K) (v : α) :
    ∃ t c', CCell.insert c k v = some (t, c') ∧ ∃ l', Inv size c' l' ∧ Step size (mapOf l) (.insert k v) (if t then .thrown else .done true) (mapOf l') := by
  rcases find_spec h k with ⟨a, w, b, h1, h2, h3⟩ | ⟨a, b, h1, h2, hu, h3, h4⟩
  · subst h1
    obtain ⟨hlt, hi⟩ := replace_ok h v
    have hid := h.ids_at a.length (by simp)
    rw [List.getElem_append_right (Nat.le_refl _)] at hid
    simp only [Nat.sub_self, List.getElem_cons_zero] at hid
    refine ⟨false, _, ?_, _, hi, ?_⟩
    · unfold CCell.insert
      simp only [h3]
      rw [if_pos (by omega)]
      simp only [Nat.add_sub_cancel, hid, if_true]
      rw [if_pos hlt]
    · have hm : mapOf (a ++ (k, w) :: b) k = some w := (mapOf_iff h.sorted k w).2 (by simp)
      simp only [Step, hm]
      refine ⟨fun hc => absurd hc.1 (by simp), fun _ => ⟨rfl, ?_⟩⟩
      exact mapOf_put v (Or.inr ⟨w, rfl⟩) h.sorted hi.sorted
  · subst h1
    have hins : CCell.insert c k v = insertNew c k v a.length := by
      unfold CCell.insert
      simp only [hu]
      by_cases h0 : 0 < a.length
      · rw [if_pos h0]
        have hid := h.ids_at (a.length - 1) (by rw [List.length_append]; omega)
        rw [hid]
        simp only
        rw [if_neg]
        rw [List.getElem_append_left (by omega)]
        exact ne_of_lt (h3 _ (List.getElem_mem _))
      · rw [if_neg h0]
    have hm : mapOf (a ++ b) k = none := by
      rw [mapOf_none]
      intro p hp
      rw [List.mem_append] at hp
      rcases hp with hp | hp
      · exact ne_of_lt (h3 p hp)
      · exact ne_of_gt (h4 p hp)
    rw [hins]
    by_cases hf : (a ++ b).length = size
    · refine ⟨true, c, insertNew_full h k v _ hf, _, h, ?_⟩
      simp only [Step, hm, (full_iff h.sorted h.le).2 hf]
      simp
    · obtain ⟨c', e1, hi⟩ := insertNew_ok h k v h3 h4 (by have := h.le; omega)
      refine ⟨false, c', e1, _, hi, ?_⟩
      simp only [Step]
      refine ⟨fun hc => absurd ((full_iff h.sorted h.le).1 hc.2) hf, fun _ => ⟨rfl, mapOf_put v (Or.inl rfl) h.sorted hi.sorted⟩⟩

theorem mapOf_erase {a b : List (K × α)} {k : K} {w : α} (hs : (a ++ (k, w) :: b).Pairwise (fun a b => a.1 < b.1)) :
    (a ++ b).Pairwise (fun a b => a.1 < b.1) ∧ mapOf (a ++ b) = put1 (mapOf (a ++ (k, w) :: b)) k none := by
  have hs' : (a ++ b).Pairwise (fun a b => a.1 < b.1) := hs.sublist (List.Sublist.append_left (List.sublist_cons_self _ _) _)
  refine ⟨hs', ?_⟩
  funext k'
  apply Option.ext
  intro x
  rw [mapOf_iff hs']
  unfold put1
  by_cases e : k' = k
  · subst e
    simp only [if_pos, reduceCtorEq, iff_false]
    intro hm
    rw [List.pairwise_append, List.pairwise_cons] at hs
    rw [List.mem_append] at hm
    rcases hm with hm | hm
    · exact absurd (hs.2.2 _ hm (k', w) (by simp)) (lt_irrefl _)
    · exact absurd (hs.2.1.1 _ hm) (lt_irrefl _)
  · rw [if_neg e, mapOf_iff hs]
    simp only [List.mem_append, List.mem_cons, Prod.mk.injEq, e, false_and, false_or]

theorem put1_same (m : K → Option α) (k : K) : put1 m k (m k) = m := by
  funext k'
  unfold put1
  split
  · next e => rw [e]
  · rfl

theorem remove_eq {size : Nat} {c : CC K α} {l : List (K × α)} (h : Inv size c l) (k : K) :
    ∃ t c', CCell.remove c k = some (t, c') ∧ ∃ l', Inv size c' l' ∧ Step size (mapOf l) (.remove k) (.done t) (mapOf l') := by
  rcases find_spec h k with ⟨a, w, b, h1, h2, h3⟩ | ⟨a, b, h1, h2, hu, h3, h4⟩
  · subst h1
    have hle := h.le
    have hnum := h.num
    have e2 : (a ++ (k, w) :: b).length = (a ++ b).length + 1 := by simp only [List.length_append, List.length_cons]; omega
    have hab : (a ++ b).length = a.length + b.length := List.length_append
    obtain ⟨ids', cells', e1, l1, l2, a1, a2⟩ := shiftDown_spec (c.num - 1 - a.length) a.length c.ids c.cells (by rw [h.lid]; omega) (by rw [h.lce]; omega)
    obtain ⟨hs, hm⟩ := mapOf_erase h.sorted
    have hk : mapOf (a ++ (k, w) :: b) k = some w := (mapOf_iff h.sorted k w).2 (by simp)
    refine ⟨true, ⟨ids', cells', (a ++ b).length⟩, ?_, a ++ b, ?_, ?_⟩
    · unfold CCell.remove
      rw [h2]
      simp only
      rw [e1]
      simp only [Option.map_some, Option.some.injEq, Prod.mk.injEq, true_and]
      rw [hnum, e2, Nat.add_sub_cancel]
    · refine inv_at (by rw [l1, h.lid]) (by rw [l2, h.lce]) (by omega) hs (fun j hj => ?_) (fun j hj => ?_)
      · rw [a1]
        by_cases c1 : j < a.length
        · rw [if_neg (by omega), h.id? j (by omega), mid, if_pos c1, List.getElem?_append_left c1]
        · rw [if_pos (by omega), h.id? (j + 1) (by omega), mid, if_neg (by omega), if_neg (by omega), List.getElem?_append_right (by omega),
            show j + 1 - a.length - 1 = j - a.length by omega]
      · rw [a2]
        by_cases c1 : j < a.length
        · rw [if_neg (by omega), h.cell? j (by omega), mid, if_pos c1, List.getElem?_append_left c1]
        · rw [if_pos (by omega), h.cell? (j + 1) (by omega), mid, if_neg (by omega), if_neg (by omega), List.getElem?_append_right (by omega),
            show j + 1 - a.length - 1 = j - a.length by omega]
    · simp only [Step, hk, Option.isSome_some, true_and]
      exact hm
  · subst h1
    have hm : mapOf (a ++ b) k = none := by
      rw [mapOf_none]
      intro p hp
      rw [List.mem_append] at hp
      rcases hp with hp | hp
      · exact ne_of_lt (h3 p hp)
      · exact ne_of_gt (h4 p hp)
    refine ⟨false, c, by unfold CCell.remove; rw [h2], _, h, ?_⟩
    simp only [Step, hm, Option.isSome_none, true_and]
    rw [← hm, put1_same]

theorem assign_eq {size : Nat} {c : CC K α} {l : List (K × α)} (h : Inv size c l) (k : K) (v : α) :
    ∃ c', CCell.assign c k v = some (false, c') ∧ ∃ l', Inv size c' l' ∧ Step size (mapOf l) (.assign k v) (.done true) (mapOf l') := by
  rcases find_spec h k with ⟨a, w, b, h1, h2, h3⟩ | ⟨a, b, h1, h2, hu, h3, h4⟩
  · subst h1
    obtain ⟨hlt, hi⟩ := replace_ok h v
    refine ⟨_, ?_, _, hi, ?_⟩
    · unfold CCell.assign
      rw [h2]
      simp only
      rw [if_pos hlt]
    · have hm : mapOf (a ++ (k, w) :: b) k = some w := (mapOf_iff h.sorted k w).2 (by simp)
      simp only [Step, hm, Option.map_some, true_and]
      exact mapOf_put v (Or.inr ⟨w, rfl⟩) h.sorted hi.sorted
  · subst h1
    have hm : mapOf (a ++ b) k = none := by
      rw [mapOf_none]
      intro p hp
      rw [List.mem_append] at hp
      rcases hp with hp | hp
      · exact ne_of_lt (h3 p hp)
      · exact ne_of_gt (h4 p hp)
    refine ⟨c, by unfold CCell.assign; rw [h2], _, h, ?_⟩
    simp only [Step, hm, Option.map_none, true_and]
    rw [← hm, put1_same]

theorem inv_nil {size : Nat} {ids : List K} {cells : List α} (h1 : ids.length = size) (h2 : cells.length = size) : Inv size ⟨ids, cells, 0⟩ [] :=
  ⟨h1, h2, rfl, Nat.zero_le _, List.Pairwise.nil, by simp, by simp⟩

theorem exec_ok {size : Nat} {c : CC K α} {l : List (K × α)} (h : Inv size c l) (op : Op K α) :
    ∃ out c', exec c op = some (out, c') ∧ ∃ l', Inv size c' l' ∧ Step size (mapOf l) op out (mapOf l') := by
  cases op with
  | insert k v =>
    obtain ⟨t, c', e, l', h1, h2⟩ := insert_eq h k v
    exact ⟨_, c', by simp only [exec, e, Option.map_some], l', h1, h2⟩
  | remove k =>
    obtain ⟨t, c', e, l', h1, h2⟩ := remove_eq h k
    exact ⟨_, c', by simp only [exec, e, Option.map_some], l', h1, h2⟩
  | clear => exact ⟨_, _, rfl, [], inv_nil h.lid h.lce, rfl, rfl⟩
  | assign k v =>
    obtain ⟨c', e, l', h1, h2⟩ := assign_eq h k v
    exact ⟨_, c', by simp only [exec, e, Option.map_some]; rfl, l', h1, h2⟩

theorem run_ok {size : Nat} (ops : List (Op K α)) : ∀ {c : CC K α} {l : List (K × α)}, Inv size c l →
    ∃ outs c', run ops c = some (outs, c') ∧ ∃ l', Inv size c' l' ∧ History size (mapOf l) ops outs (mapOf l') := by
  induction ops with
  | nil => intro c l h; exact ⟨[], c, rfl, l, h, .nil _⟩
  | cons op ops ih =>
    intro c l h
    obtain ⟨o, c1, e1, l1, h1, s1⟩ := exec_ok h op
    obtain ⟨os, c2, e2, l2, h2, s2⟩ := ih h1
    exact ⟨o :: os, c2, by simp only [run, e1, Option.bind_some, e2, Option.map_some], l2, h2, .cons s1 s2⟩

/-- **C36.** After any history of operations on a new container with room for `size` elements, the container behaves like the map obtained by the same history: no undefined
behaviour, an exception exactly if a new key does not fit, `remove` reports whether the key was present, lookups return the last value, iteration is in ascending order of keys. -/
theorem history {size : Nat} (ids : List K) (cells : List α) (h1 : ids.length = size) (h2 : cells.length = size) (ops : List (Op K α)) :
    ∃ outs c' m', run ops (make ids cells) = some (outs, c') ∧ History size (fun _ => none) ops outs m' ∧ Shows size c' m' := by
  obtain ⟨outs, c', e, l', h3, h4⟩ := run_ok ops (inv_nil h1 h2)
  exact ⟨outs, c', mapOf l', e, h4, shows_of_inv h3⟩

/-! ## neighborhoods -/

/-- relative coordinates of the Moore neighborhood -/
def Near (n : Nat) (d : Crd) : Prop := ∀ j, j ≤ n → -1 ≤ d j ∧ d j ≤ 1

/-- the neighborhood does not depend on coordinates beyond the dimension -/
def Local {β : Type} (n : Nat) (hood : Crd → β) : Prop := ∀ a b : Crd, (∀ j, j ≤ n → a j = b j) → hood a = hood b

theorem searchLoop_spec {n : Nat} {hood : Crd → CC K α} {ms : Crd → K → Option α} {size : Nat} (hs : ∀ d, Near n d → Shows size (hood d) (ms d)) (id : K) (l : List Crd)
    (hl : ∀ d ∈ l, Near n d) :
    ∃ r, searchLoop n hood id l = some r ∧ (∀ v, r = some v → ∃ d ∈ l, ms d id = some v) ∧ (r = none → ∀ d ∈ l, crdEq n d (fun _ => 0) = false → ms d id = none) := by
  induction l with
  | nil => exact ⟨none, rfl, by simp, by simp⟩
  | cons d l ih =>
    obtain ⟨r, e, h1, h2⟩ := ih (fun x hx => hl x (List.mem_cons_of_mem _ hx))
    unfold searchLoop
    by_cases c : crdEq n d (fun _ => 0) = true
    · rw [if_pos c]
      refine ⟨r, e, fun v hv => ?_, fun hr x hx hc => ?_⟩
      · obtain ⟨x, hx, hv⟩ := h1 v hv
        exact ⟨x, List.mem_cons_of_mem _ hx, hv⟩
      · rw [List.mem_cons] at hx
        rcases hx with rfl | hx
        · rw [c] at hc; cases hc
        · exact h2 hr x hx hc
    · rw [if_neg c, (hs d (hl d List.mem_cons_self)).find id]
      cases hm : ms d id with
      | some v => exact ⟨some v, rfl, fun w hw => ⟨d, List.mem_cons_self, by rw [hm, hw]⟩, by simp⟩
      | none =>
        refine ⟨r, e, fun v hv => ?_, fun hr x hx hc => ?_⟩
        · obtain ⟨x, hx, hv⟩ := h1 v hv
          exact ⟨x, List.mem_cons_of_mem _ hx, hv⟩
        · rw [List.mem_cons] at hx
          rcases hx with rfl | hx
          · exact hm
          · exact h2 hr x hx hc

theorem near_box (n : Nat) : ∃ l, boxCoords n ⟨fun _ => -1, fun _ => 3⟩ (3 ^ (n + 1) + 1) = some l ∧ ∀ c, (∃ c' ∈ l, ∀ k, k ≤ n → c' k = c k) ↔ Near n c := by
  have hv : ∀ n, C12.Volume n (fun _ => 3) = 3 ^ (n + 1) := by
    intro n
    induction n with
    | zero => rfl
    | succ n ih => rw [C12.Volume, ih, pow_succ 3 (n + 1)]
  obtain ⟨l, e, h, _⟩ := C12.coords_partial n ⟨fun _ => -1, fun _ => 3⟩ (fun _ _ => by simp) (by simp) (3 ^ (n + 1) + 1)
    (by rw [hv, show ((3 : Int) ^ (n + 1)) = ((3 ^ (n + 1) : Nat) : Int) by push_cast; rfl, Int.toNat_natCast]; omega)
  refine ⟨l, e, fun c => ?_⟩
  rw [h]
  exact ⟨fun hc j hj => by have := hc j hj; simp only at this; omega, fun hc j hj => by have := hc j hj; simp only; omega⟩

/-- **C36, lookup by ID in the neighborhood.** If each container of the neighborhood holds some map, then a lookup via the neighborhood returns a value which one of them holds for the ID,
the container's own value takes precedence, and the lookup fails (by an exception) exactly if none of the containers holds the ID. In particular, if the ID is unique within the neighborhood,
the value returned is the one. -/
theorem neighborhood {n size : Nat} {hood : Crd → CC K α} {ms : Crd → K → Option α} (hloc : Local n ms) (hs : ∀ d, Near n d → Shows size (hood d) (ms d)) (id : K) :
    ∃ r, adapterGet n hood id = some r ∧ (∀ v, ms (fun _ => 0) id = some v → r = some v) ∧ (∀ v, r = some v → ∃ d, Near n d ∧ ms d id = some v) ∧
      (r = none ↔ ∀ d, Near n d → ms d id = none) := by
  have h0 : Near n (fun _ => 0) := fun j _ => by simp
  unfold adapterGet
  rw [(hs _ h0).find id]
  cases hm : ms (fun _ => 0) id with
  | some v =>
    refine ⟨some v, rfl, fun w hw => hw, fun w hw => ⟨_, h0, by rw [hm, hw]⟩, by simp, fun h => ?_⟩
    have := h _ h0
    rw [hm] at this
    cases this
  | none =>
    obtain ⟨l, e, hl⟩ := near_box n
    have hl' : ∀ d ∈ l, Near n d := fun d hd => (hl d).1 ⟨d, hd, fun _ _ => rfl⟩
    obtain ⟨r, e2, h1, h2⟩ := searchLoop_spec hs id l hl'
    refine ⟨r, by simp only [e, Option.bind_some, e2], by simp, fun v hv => ?_, fun hr d hd => ?_, fun h => ?_⟩
    · obtain ⟨d, hd, hv⟩ := h1 v hv
      exact ⟨d, hl' d hd, hv⟩
    · obtain ⟨d', hd', he⟩ := (hl d).2 hd
      rw [← hloc d' d he]
      by_cases c : crdEq n d' (fun _ => 0) = true
      · rw [hloc d' _ ((crdEq_iff n d' _).1 c)]; exact hm
      · exact h2 hr d' hd' (by simpa using c)
    · cases r with
      | none => rfl
      | some v =>
        obtain ⟨d, hd, hv⟩ := h1 v rfl
        rw [h d (hl' d hd)] at hv
        cases hv

/-- what a lookup via the neighborhood may return -/
def Lookup (n : Nat) (ms : Crd → K → Option α) (look : K → Option α) : Prop :=
  ∀ id, (∀ v, ms (fun _ => 0) id = some v → look id = some v) ∧ (∀ v, look id = some v → ∃ d, Near n d ∧ ms d id = some v) ∧ (look id = none ↔ ∀ d, Near n d → ms d id = none)

theorem cargoLoop_spec {size : Nat} (f : α → Option α) (b : List (K × α)) : ∀ (a : List (K × α)) (c : CC K α), Inv size c (a ++ b) →
    ∃ t c', cargoLoop f b.length a.length c = some (t, c') ∧ (t = true ↔ ∃ p ∈ b, f p.2 = none) ∧
      (t = false → ∃ b', Inv size c' (a ++ b') ∧ b'.map Prod.fst = b.map Prod.fst ∧ b'.map (fun p => some p.2) = b.map (fun p => f p.2)) := by
  induction b with
  | nil => intro a c h; exact ⟨false, c, rfl, by simp, fun _ => ⟨[], h, rfl, rfl⟩⟩
  | cons p b ih =>
    intro a c h
    have hc := h.cells_at a.length (by simp)
    simp only [List.getElem_append_right (Nat.le_refl _), Nat.sub_self, List.getElem_cons_zero] at hc
    cases hf : f p.2 with
    | none => exact ⟨true, c, by simp only [List.length_cons, cargoLoop, hc, hf], by simp [hf], by simp⟩
    | some v =>
      obtain ⟨hlt, hi⟩ := replace_ok (k := p.1) (w := p.2) h v
      have hi' : Inv size { c with cells := c.cells.set a.length v } ((a ++ [(p.1, v)]) ++ b) := by simpa using hi
      obtain ⟨t, c', e, h1, h2⟩ := ih (a ++ [(p.1, v)]) _ hi'
      refine ⟨t, c', ?_, ?_, fun ht => ?_⟩
      · simp only [List.length_cons, cargoLoop, hc, hf]
        simpa using e
      · rw [h1]; simp [hf]
      · obtain ⟨b', h3, h4, h5⟩ := h2 ht
        exact ⟨(p.1, v) :: b', by simpa using h3, by simp [h4], by simp [h5, hf]⟩

theorem step_det {size : Nat} {m m1 m2 : K → Option α} {op : Op K α} {o1 o2 : Out} (h1 : Step size m op o1 m1) (h2 : Step size m op o2 m2) : o1 = o2 ∧ m1 = m2 := by
  cases op with
  | insert k v =>
    by_cases c : m k = none ∧ Full size m
    · exact ⟨(h1.1 c).1.trans (h2.1 c).1.symm, (h1.1 c).2.trans (h2.1 c).2.symm⟩
    · exact ⟨(h1.2 c).1.trans (h2.2 c).1.symm, (h1.2 c).2.trans (h2.2 c).2.symm⟩
  | remove k => exact ⟨h1.1.trans h2.1.symm, h1.2.trans h2.2.symm⟩
  | clear => exact ⟨h1.1.trans h2.1.symm, h1.2.trans h2.2.symm⟩
  | assign k v => exact ⟨h1.1.trans h2.1.symm, h1.2.trans h2.2.symm⟩

/-- the specification determines outcomes and map -/
theorem history_det {size : Nat} {ops : List (Op K α)} : ∀ {m m1 m2 : K → Option α} {o1 o2 : List Out}, History size m ops o1 m1 → History size m ops o2 m2 → o1 = o2 ∧ m1 = m2 := by
  induction ops with
  | nil => intro m m1 m2 o1 o2 h1 h2; cases h1; cases h2; exact ⟨rfl, rfl⟩
  | cons op ops ih =>
    intro m m1 m2 o1 o2 h1 h2
    cases h1 with
    | cons a1 b1 => cases h2 with
      | cons a2 b2 =>
        obtain ⟨e1, e2⟩ := step_det a1 a2
        subst e1 e2
        obtain ⟨e3, e4⟩ := ih b1 b2
        exact ⟨by rw [e3], e4⟩

/-- a container reached by some history, and the map it holds -/
def Reached (size : Nat) (c : CC K α) (m : K → Option α) : Prop :=
  ∃ ids cells ops outs, ids.length = size ∧ cells.length = size ∧ run ops (make ids cells) = some (outs, c) ∧ History size (fun _ => none) ops outs m

theorem Reached.inv {size : Nat} {c : CC K α} {m : K → Option α} (h : Reached size c m) : ∃ l, Inv size c l ∧ mapOf l = m := by
  obtain ⟨ids, cells, ops, outs, h1, h2, h3, h4⟩ := h
  obtain ⟨outs', c', e, l', h5, h6⟩ := run_ok ops (inv_nil h1 h2)
  have e' := h3.symm.trans e
  simp only [Option.some.injEq, Prod.mk.injEq] at e'
  obtain ⟨-, rfl⟩ := e'
  exact ⟨l', h5, (history_det (show History size (fun _ => none) ops outs' (mapOf l') from h6) h4).2⟩

theorem mapOf_map {l l' : List (K × α)} (g : α → Option α) (hk : l'.map Prod.fst = l.map Prod.fst) (hv : l'.map (fun p => some p.2) = l.map (fun p => g p.2)) (k : K) :
    mapOf l' k = (mapOf l k).bind g := by
  induction l generalizing l' with
  | nil =>
    have : l' = [] := by simpa using hk
    subst this
    rfl
  | cons p l ih =>
    cases l' with
    | nil => simp at hk
    | cons q l' =>
      simp only [List.map_cons, List.cons.injEq] at hk hv
      have := ih hk.2 hv.2
      unfold mapOf at this ⊢
      rw [List.find?_cons, List.find?_cons, hk.1]
      by_cases e : p.1 = k
      · simp only [e, decide_true, Option.map_some, Option.bind_some]; exact hv.1
      · simp only [e, decide_false]; exact this

/-- **C36, update.** If the containers of the neighborhood are the results of arbitrary histories, then updating a container applies the cargo's update function to each of its elements, where
lookups see the old neighborhood, and leaves the IDs as they are. It throws exactly if one of the update functions throws. -/
theorem update {n size : Nat} {hood : Crd → CC K α} {ms : Crd → K → Option α} (hloc : Local n ms) (hs : ∀ d, Near n d → Reached size (hood d) (ms d))
    (f : (K → Option (Option α)) → α → Option α) :
    ∃ look, Lookup n ms look ∧ ∃ t c', CCell.update n f hood = some (t, c') ∧
      (t = true ↔ ∃ id v, ms (fun _ => 0) id = some v ∧ f (fun id => some (look id)) v = none) ∧
      (t = false → Shows size c' (fun id => (ms (fun _ => 0) id).bind (f (fun id => some (look id))))) := by
  have hsh : ∀ d, Near n d → Shows size (hood d) (ms d) := by
    intro d hd
    obtain ⟨l, h1, h2⟩ := (hs d hd).inv
    rw [← h2]
    exact shows_of_inv h1
  have hn := fun id => neighborhood hloc hsh id
  choose look hlook using hn
  refine ⟨look, fun id => (hlook id).2, ?_⟩
  have hg : adapterGet n hood = fun id => some (look id) := funext fun id => (hlook id).1
  obtain ⟨l, h1, h2⟩ := (hs (fun _ => 0) (fun j _ => by simp)).inv
  obtain ⟨t, c', e, h3, h4⟩ := cargoLoop_spec (f (fun id => some (look id))) l [] _ h1
  refine ⟨t, c', ?_, ?_, fun ht => ?_⟩
  · unfold CCell.update
    rw [hg, h1.num]
    exact e
  · rw [h3, ← h2]
    constructor
    · rintro ⟨p, hp, hf⟩
      exact ⟨p.1, p.2, (mapOf_iff h1.sorted _ _).2 hp, hf⟩
    · rintro ⟨id, v, hm, hf⟩
      exact ⟨(id, v), (mapOf_iff h1.sorted _ _).1 hm, hf⟩
  · obtain ⟨b', h5, h6, h7⟩ := h4 ht
    have := shows_of_inv h5
    rw [show mapOf ([] ++ b') = fun id => (ms (fun _ => 0) id).bind (f (fun id => some (look id))) from funext fun k => by
      rw [← h2]; exact mapOf_map _ h6 h7 k] at this
    exact this

/-! ## examples -/

/-- at capacity, overwriting works, a new key raises an exception, removal of an absent key is reported -/
example : (run [.insert 5 1, .insert 2 2, .insert 9 3, .insert 2 7, .insert 4 4, .remove 5, .remove 5, .insert 4 8, .assign 9 6] (make [0, 0, 0] [0, 0, 0] : CC Int Nat)).map
      (fun r => (r.1, r.2.ids.zip r.2.cells, r.2.num)) =
    some ([.done true, .done true, .done true, .done true, .thrown, .done true, .done false, .done true, .done true], [(2, 7), (4, 8), (9, 6)], 3) := by decide +kernel

/-- two containers next to each other: `Near` neighborhoods reached by histories; an element looks up an ID stored in the container to the right -/
example : ∃ (hood : Crd → CC Int Nat) (ms : Crd → Int → Option Nat), Local 0 ms ∧ (∀ d, Near 0 d → Reached 2 (hood d) (ms d)) ∧
    (CCell.update 0 (fun g v => match g 7 with | some (some w) => some (v + w) | _ => none) hood).map (fun r => (r.1, r.2.ids, r.2.cells, r.2.num)) = some (false, [1, 0], [12, 0], 1) ∧
    (CCell.update 0 (fun g v => match g 8 with | some (some w) => some (v + w) | _ => none) hood).map (fun r => r.1) = some true := by
  refine ⟨fun d => if d 0 = 0 then ⟨[1, 0], [2, 0], 1⟩ else ⟨[7, 0], [10, 0], 1⟩,
    fun d => if d 0 = 0 then put1 (fun _ => none) 1 (some 2) else put1 (fun _ => none) 7 (some 10), fun a b h => by simp only [h 0 (Nat.le_refl _)], fun d _ => ?_,
    by decide +kernel, by decide +kernel⟩
  have nf : ¬ Full 2 (fun _ : Int => (none : Option Nat)) := by
    rintro ⟨ks, _, h2, h3⟩
    cases ks with
    | nil => simp at h2
    | cons k ks => exact h3 k (by simp) rfl
  by_cases e : d 0 = 0
  · simp only [e, if_true]
    exact ⟨[0, 0], [0, 0], [.insert 1 2], [.done true], rfl, rfl, rfl, .cons ⟨fun h => absurd h.2 nf, fun _ => ⟨rfl, rfl⟩⟩ (.nil _)⟩
  · simp only [e, if_false]
    exact ⟨[0, 0], [0, 0], [.insert 7 10], [.done true], rfl, rfl, rfl, .cons ⟨fun h => absurd h.2 nf, fun _ => ⟨rfl, rfl⟩⟩ (.nil _)⟩

end LGD.C36
