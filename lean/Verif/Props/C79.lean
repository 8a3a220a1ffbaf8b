import Verif.Store.SoaArrayModel
import Mathlib.Tactic.Linarith
import Mathlib.Algebra.Order.Group.Nat
import Mathlib.Algebra.BigOperators.Group.List.Basic

/-!
# C79: `soa_array` is a vector of bounded capacity
-/

namespace LGD.C79
open LGD.SoaArr

variable {α : Type}

/-- the elements a user sees -/
def contents (a : Arr α) : List α := a.mem.take a.elements

/-- valid arrays of capacity `C` -/
def Valid (C : Nat) (a : Arr α) : Prop := a.mem.length = C ∧ a.elements ≤ C

/-- the bounded vector: `none` if the operation isn't allowed, otherwise the new elements and whether the operation throws -/
def spec (C : Nat) (l : List α) : Op α → Option (List α × Bool)
  | .push x => some (if l.length < C then (l ++ [x], false) else (l, true))
  | .pop => some (if l = [] then (l, true) else (l.dropLast, false))
  | .clear => some ([], false)
  | .set i x => if i < l.length then some (l.set i x, false) else none
  | .loadAt src so num off =>
    if so + num ≤ src.length ∧ off ≤ l.length ∧ num + off < 2 ^ 64 then
      some (if num + off ≤ C then (l.take off ++ (src.drop so).take num ++ l.drop (off + num), false) else (l, true))
    else none
  | .load src so num =>
    if so + num ≤ src.length ∧ num + l.length < 2 ^ 64 then some (if num + l.length ≤ C then (l ++ (src.drop so).take num, false) else (l, true)) else none
  | .assign other => if other.elements ≤ other.mem.length then some (if other.elements ≤ C then (other.mem.take other.elements, false) else (l, true)) else none

def specRun (C : Nat) : List α → List (Op α) → Option (List α × List Bool)
  | l, [] => some (l, [])
  | l, op :: ops => (spec C l op).bind fun r => (specRun C r.1 ops).bind fun q => some (q.1, r.2 :: q.2)

def res : Bool → Res := fun b => if b then .thrown else .ok

theorem contents_length {C : Nat} {a : Arr α} (h : Valid C a) : (contents a).length = a.elements := by
  unfold contents; rw [List.length_take, h.1]; exact min_eq_left h.2

theorem loop_length (rd : List α → List α) (off so : Nat) : ∀ (k : Nat) (m : List α), (loadLoop rd off so k m).length = m.length := by
  intro k
  induction k with
  | zero => intro m; rfl
  | succ k ih =>
    intro m
    simp only [loadLoop]
    cases h : (rd (loadLoop rd off so k m))[so + k]? with
    | none => simp only [ih]
    | some x => simp only [List.length_set, ih]

/-- loading from another array: the elements from `off` on are those of the source, all others are unchanged -/
theorem loop_get (src : List α) (off so : Nat) (m : List α) : ∀ k, off + k ≤ m.length → so + k ≤ src.length → ∀ j,
    (loadLoop (fun _ => src) off so k m)[j]? = if off ≤ j ∧ j < off + k then src[so + (j - off)]? else m[j]? := by
  intro k
  induction k with
  | zero => intro _ _ j; simp only [loadLoop]; rw [if_neg (by omega)]
  | succ k ih =>
    intro h1 h2 j
    have h3 : so + k < src.length := by omega
    simp only [loadLoop]
    rw [List.getElem?_eq_getElem h3]
    simp only
    rw [List.getElem?_set, loop_length]
    by_cases hj : off + k = j
    · rw [if_pos hj, if_pos (by omega), if_pos (by omega)]
      rw [show so + (j - off) = so + k by omega, List.getElem?_eq_getElem h3]
    · rw [if_neg hj, ih (by omega) (by omega)]
      by_cases hc : off ≤ j ∧ j < off + k
      · rw [if_pos hc, if_pos (by omega)]
      · rw [if_neg hc, if_neg (by omega)]

theorem contents_get (a : Arr α) (j : Nat) : (contents a)[j]? = if j < a.elements then a.mem[j]? else none := by
  unfold contents; rw [List.getElem?_take]

theorem loadAt_contents {C : Nat} {a : Arr α} (h : Valid C a) {src : List α} {so num off : Nat} (h1 : so + num ≤ src.length) (h2 : off ≤ a.elements) (h3 : num + off < 2 ^ 64)
    (h4 : num + off ≤ C) : ∃ b, loadAt C (fun _ => src) a so num off = (b, .ok) ∧ Valid C b ∧
      contents b = (contents a).take off ++ (src.drop so).take num ++ (contents a).drop (off + num) := by
  obtain ⟨hm, he⟩ := h
  refine ⟨⟨loadLoop (fun _ => src) off so num a.mem, max a.elements (num + off)⟩, ?_, ⟨by simp only [loop_length, hm], by simp only; omega⟩, ?_⟩
  · unfold loadAt
    simp only [Nat.mod_eq_of_lt h3]
    rw [if_neg (by omega), if_neg (by omega)]
  · apply List.ext_getElem?
    intro j
    rw [contents_get]
    simp only
    rw [loop_get _ _ _ _ _ (by omega) h1]
    have hl : ((contents a).take off).length = off := by rw [List.length_take, contents_length ⟨hm, he⟩]; omega
    have hs : ((src.drop so).take num).length = num := by rw [List.length_take, List.length_drop]; omega
    rw [List.append_assoc, List.getElem?_append, hl]
    by_cases h5 : j < off
    · rw [if_pos h5, if_pos (by omega), if_neg (by omega), List.getElem?_take, if_pos h5, contents_get, if_pos (by omega)]
    · rw [if_neg h5, List.getElem?_append, hs]
      by_cases h6 : j - off < num
      · rw [if_pos h6, if_pos (by omega), if_pos (by omega), List.getElem?_take, if_pos h6, List.getElem?_drop]
      · rw [if_neg h6, List.getElem?_drop, contents_get, show off + num + (j - off - num) = j by omega, if_neg (by omega : ¬ (off ≤ j ∧ j < off + num))]
        by_cases h7 : j < a.elements
        · rw [if_pos h7, if_pos (by omega)]
        · rw [if_neg h7, if_neg (by omega)]

theorem loadAt_throws {C : Nat} {a : Arr α} (rd : List α → List α) {so num off : Nat} (h3 : num + off < 2 ^ 64) (h4 : C < num + off) :
    loadAt C rd a so num off = (a, .thrown) := by
  unfold loadAt
  simp only [Nat.mod_eq_of_lt h3]
  rw [if_pos (by omega)]

/-- every allowed operation has the effect it has on a bounded vector; if it throws, then the array is unchanged -/
theorem refine {C : Nat} {a : Arr α} (h : Valid C a) (op : Op α) {l : List α} {t : Bool} (hs : spec C (contents a) op = some (l, t)) :
    ∃ b, step C a op = (b, res t) ∧ Valid C b ∧ contents b = l ∧ (t = true → b = a) := by
  have hlen := contents_length h
  cases op with
  | push x =>
    simp only [spec, hlen, Option.some.injEq] at hs
    by_cases hc : a.elements < C
    · rw [if_pos hc] at hs
      obtain ⟨rfl, rfl⟩ := Prod.mk.inj hs
      refine ⟨⟨a.mem.set a.elements x, a.elements + 1⟩, ?_, ⟨by simp only [List.length_set]; exact h.1, hc⟩, ?_, by simp⟩
      · simp only [step, push]
        rw [if_neg (by omega)]
        have hset : SoaArr.set a a.elements x = ({ a with mem := a.mem.set a.elements x }, .ok) := by
          unfold SoaArr.set; rw [if_pos (by rw [h.1]; exact hc)]
        rw [hset]; rfl
      · unfold contents
        simp only
        rw [List.take_add_one, List.take_set_of_le (Nat.le_refl _)]
        rw [List.getElem?_set_self (by rw [h.1]; exact hc)]; rfl
    · rw [if_neg hc] at hs
      obtain ⟨rfl, rfl⟩ := Prod.mk.inj hs
      refine ⟨a, ?_, h, rfl, fun _ => rfl⟩
      simp only [step, push]; rw [if_pos (by omega)]; rfl
  | pop =>
    simp only [spec, Option.some.injEq] at hs
    by_cases hc : contents a = []
    · rw [if_pos hc] at hs
      obtain ⟨rfl, rfl⟩ := Prod.mk.inj hs
      refine ⟨a, ?_, h, rfl, fun _ => rfl⟩
      simp only [step, pop]; rw [if_pos (by rw [← hlen, hc]; rfl)]; rfl
    · rw [if_neg hc] at hs
      obtain ⟨rfl, rfl⟩ := Prod.mk.inj hs
      have h0 : a.elements ≠ 0 := fun h0 => hc (List.length_eq_zero_iff.1 (by rw [hlen, h0]))
      refine ⟨⟨a.mem, a.elements - 1⟩, ?_, ⟨h.1, by have := h.2; simp only; omega⟩, ?_, by simp⟩
      · simp only [step, pop]; rw [if_neg h0]; rfl
      · rw [List.dropLast_eq_take, hlen]
        unfold contents
        simp only
        rw [List.take_take, min_eq_left (by omega)]
  | clear =>
    simp only [spec, Option.some.injEq] at hs
    obtain ⟨rfl, rfl⟩ := Prod.mk.inj hs
    exact ⟨⟨a.mem, 0⟩, rfl, ⟨h.1, Nat.zero_le _⟩, rfl, by simp⟩
  | set i x =>
    simp only [spec, hlen] at hs
    by_cases hc : i < a.elements
    · rw [if_pos hc] at hs
      obtain ⟨rfl, rfl⟩ := Prod.mk.inj (Option.some.inj hs)
      refine ⟨⟨a.mem.set i x, a.elements⟩, ?_, ⟨by simp only [List.length_set]; exact h.1, h.2⟩, ?_, by simp⟩
      · simp only [step, SoaArr.set]
        rw [if_pos (by have := h.1; have := h.2; omega)]; rfl
      · unfold contents
        simp only [List.take_set]
    · rw [if_neg hc] at hs; exact absurd hs (by simp)
  | loadAt src so num off =>
    simp only [spec, hlen] at hs
    by_cases hc : so + num ≤ src.length ∧ off ≤ a.elements ∧ num + off < 2 ^ 64
    · rw [if_pos hc] at hs
      by_cases hd : num + off ≤ C
      · rw [if_pos hd] at hs
        obtain ⟨rfl, rfl⟩ := Prod.mk.inj (Option.some.inj hs)
        obtain ⟨b, hb, hv, hcb⟩ := loadAt_contents h hc.1 hc.2.1 hc.2.2 hd
        exact ⟨b, hb, hv, hcb, by simp⟩
      · rw [if_neg hd] at hs
        obtain ⟨rfl, rfl⟩ := Prod.mk.inj (Option.some.inj hs)
        exact ⟨a, loadAt_throws (C := C) (a := a) (fun _ => src) hc.2.2 (by omega), h, rfl, fun _ => rfl⟩
    · rw [if_neg hc] at hs; exact absurd hs (by simp)
  | load src so num =>
    simp only [spec, hlen] at hs
    by_cases hc : so + num ≤ src.length ∧ num + a.elements < 2 ^ 64
    · rw [if_pos hc] at hs
      by_cases hd : num + a.elements ≤ C
      · rw [if_pos hd] at hs
        obtain ⟨rfl, rfl⟩ := Prod.mk.inj (Option.some.inj hs)
        obtain ⟨b, hb, hv, hcb⟩ := loadAt_contents h hc.1 (Nat.le_refl _) hc.2 hd
        refine ⟨b, hb, hv, ?_, by simp⟩
        rw [hcb, List.take_of_length_le (Nat.le_of_eq hlen), List.drop_of_length_le (by omega : (contents a).length ≤ a.elements + num), List.append_nil]
      · rw [if_neg hd] at hs
        obtain ⟨rfl, rfl⟩ := Prod.mk.inj (Option.some.inj hs)
        exact ⟨a, loadAt_throws (C := C) (a := a) (fun _ => src) hc.2 (by omega), h, rfl, fun _ => rfl⟩
    · rw [if_neg hc] at hs; exact absurd hs (by simp)
  | assign other =>
    simp only [spec] at hs
    by_cases hc : other.elements ≤ other.mem.length
    · rw [if_pos hc] at hs
      by_cases hd : other.elements ≤ C
      · rw [if_pos hd] at hs
        obtain ⟨rfl, rfl⟩ := Prod.mk.inj (Option.some.inj hs)
        refine ⟨⟨other.mem.take other.elements ++ a.mem.drop other.elements, other.elements⟩, ?_, ⟨?_, hd⟩, ?_, by simp⟩
        · simp only [step, copyIn]
          rw [if_neg (by omega), if_neg (by have := h.1; omega)]; rfl
        · simp only [List.length_append, List.length_take, List.length_drop, h.1]; omega
        · unfold contents
          simp only
          rw [List.take_append_of_le_length (by rw [List.length_take]; omega), List.take_take, min_self]
      · rw [if_neg hd] at hs
        obtain ⟨rfl, rfl⟩ := Prod.mk.inj (Option.some.inj hs)
        refine ⟨a, ?_, h, rfl, fun _ => rfl⟩
        simp only [step, copyIn]; rw [if_pos (by omega)]; rfl
    · rw [if_neg hc] at hs; exact absurd hs (by simp)

/-- programs: elements and exceptions are those of a bounded vector -/
theorem run_refines {C : Nat} (ops : List (Op α)) : ∀ {a : Arr α} {l : List α} {ts : List Bool}, Valid C a → specRun C (contents a) ops = some (l, ts) →
    ∃ b, run C a ops = (b, ts.map res) ∧ Valid C b ∧ contents b = l := by
  induction ops with
  | nil =>
    intro a l ts h hs
    simp only [specRun, Option.some.injEq] at hs
    obtain ⟨rfl, rfl⟩ := Prod.mk.inj hs
    exact ⟨a, rfl, h, rfl⟩
  | cons op ops ih =>
    intro a l ts h hs
    simp only [specRun] at hs
    obtain ⟨r, hr, hs⟩ := Option.bind_eq_some_iff.1 hs
    obtain ⟨q, hq, hs⟩ := Option.bind_eq_some_iff.1 hs
    obtain ⟨rfl, rfl⟩ := Prod.mk.inj (Option.some.inj hs)
    obtain ⟨b, hb, hv, hc, _⟩ := refine h op hr
    obtain ⟨c, hcr, hvc, hcc⟩ := ih hv (by rw [hc]; exact hq)
    refine ⟨c, ?_, hvc, hcc⟩
    simp only [run, hb, hcr, List.map_cons]

/-- what can be observed: size, access by index, iteration, last element -/
theorem observed {C : Nat} {a : Arr α} (h : Valid C a) : a.elements = (contents a).length ∧ (∀ i, i < a.elements → get a i = (contents a)[i]?) ∧
    visited a = (contents a).map some ∧ back a = (contents a).getLast? := by
  have hl := contents_length h
  have hg : ∀ i, i < a.elements → get a i = (contents a)[i]? := fun i hi => by rw [contents_get, if_pos hi]; rfl
  refine ⟨hl.symm, hg, ?_, ?_⟩
  · apply List.ext_getElem?
    intro j
    unfold visited
    rw [List.getElem?_map, List.getElem?_map]
    by_cases hj : j < a.elements
    · rw [List.getElem?_range hj, Option.map_some, hg j hj, List.getElem?_eq_getElem (by omega : j < (contents a).length)]; rfl
    · rw [List.getElem?_eq_none (by rw [List.length_range]; omega), List.getElem?_eq_none (by omega : (contents a).length ≤ j)]; rfl
  · unfold back
    rw [List.getLast?_eq_getElem?, hl]
    by_cases h0 : a.elements = 0
    · rw [if_pos h0, List.getElem?_eq_none (by omega)]
    · rw [if_neg h0, hg _ (by omega)]

/-- constructed arrays -/
theorem make_contents {C : Nat} (dflt : α) {n : Nat} (v : α) (hC : C < 2 ^ 31) (hn : n ≤ C) :
    ∃ a, make C dflt n v = (a, .ok) ∧ Valid C a ∧ contents a = List.replicate n v := by
  have ht : toInt n = n := by unfold toInt; rw [Nat.mod_eq_of_lt (by omega), if_pos (by omega)]
  refine ⟨⟨List.replicate n v ++ List.replicate (C - n) dflt, n⟩, ?_, ⟨by simp only [List.length_append, List.length_replicate]; omega, hn⟩, ?_⟩
  · unfold make; rw [ht, if_pos hn]
  · unfold contents
    simp only
    rw [List.take_append_of_le_length (by rw [List.length_replicate]), List.take_of_length_le (by rw [List.length_replicate])]

/-- larger arrays than the capacity: no exception. Memory behind the array is overwritten unless the conversion to `int` loses the excess, and then the array claims elements it doesn't have. -/
theorem make_too_large {C : Nat} (dflt : α) {n : Nat} (v : α) (hn : C < n) :
    (make C dflt n v).2 ≠ .thrown ∧ (n < 2 ^ 31 → (make C dflt n v).2 = .undefined) ∧ ¬ Valid C (make C dflt n v).1 := by
  unfold make
  refine ⟨?_, ?_, ?_⟩
  · by_cases h : toInt n ≤ C
    · rw [if_pos h]; simp
    · rw [if_neg h]; simp
  · intro h
    have ht : toInt n = n := by unfold toInt; rw [Nat.mod_eq_of_lt (by omega), if_pos (by omega)]
    rw [ht, if_neg (by omega)]
  · by_cases h : toInt n ≤ C
    · rw [if_pos h]; intro hv; exact absurd hv.2 (by simp only; omega)
    · rw [if_neg h]; intro hv; exact absurd hv.2 (by simp only; omega)

/-- copies into an array of another capacity -/
theorem copy_contents {C : Nat} (dflt : α) {other : Arr α} (h : other.elements ≤ other.mem.length) :
    (other.elements ≤ C → ∃ b, copyFrom C dflt other = (b, .ok) ∧ Valid C b ∧ contents b = contents other) ∧ (C < other.elements → (copyFrom C dflt other).2 = .thrown) := by
  constructor
  · intro hC
    have hv : Valid C (⟨List.replicate C dflt, 0⟩ : Arr α) := ⟨List.length_replicate, Nat.zero_le _⟩
    obtain ⟨b, hb, hvb, hcb, _⟩ := refine hv (.assign other) (l := contents other) (t := false) (by simp only [spec]; rw [if_pos h, if_pos hC]; rfl)
    exact ⟨b, hb, hvb, hcb⟩
  · intro hC
    unfold copyFrom copyIn
    rw [if_pos hC]

theorem swap_contents (a b : Arr α) : contents (SoaArr.swap a b).1 = contents b ∧ contents (SoaArr.swap a b).2 = contents a := ⟨rfl, rfl⟩

/-- an offset behind the last element: the elements in between are those last stored there, whether or not they were removed -/
theorem load_gap {C : Nat} {a : Arr α} (h : Valid C a) {src : List α} {so num off : Nat} (h1 : so + num ≤ src.length) (h2 : a.elements ≤ off) (h3 : num + off < 2 ^ 64) (h4 : num + off ≤ C) :
    ∃ b, loadAt C (fun _ => src) a so num off = (b, .ok) ∧ contents b = a.mem.take off ++ (src.drop so).take num := by
  have hv : Valid C (⟨a.mem, off⟩ : Arr α) := ⟨h.1, by simp only; omega⟩
  have hm := h.1
  have key : ∀ e, e ≤ off → loadAt C (fun _ => src) (⟨a.mem, e⟩ : Arr α) so num off = (⟨loadLoop (fun _ => src) off so num a.mem, num + off⟩, .ok) := by
    intro e he
    unfold loadAt
    simp only [Nat.mod_eq_of_lt h3]
    rw [max_eq_right (by omega), if_neg (by omega), if_neg (by omega)]
  obtain ⟨b, hb, _, hc⟩ := loadAt_contents hv h1 (Nat.le_refl off) h3 h4
  refine ⟨b, ?_, ?_⟩
  · rw [← hb, key off (Nat.le_refl _)]; exact key a.elements h2
  · rw [hc, show contents (⟨a.mem, off⟩ : Arr α) = a.mem.take off from rfl, List.drop_of_length_le (by rw [List.length_take]; omega : (a.mem.take off).length ≤ off + num), List.append_nil,
      List.take_take, min_self]

/-- negation: `load` at an offset isn't determined by the elements of the array -/
theorem load_reveals_removed : ∃ (a b : Arr Nat), Valid 4 a ∧ Valid 4 b ∧ contents a = contents b ∧
    contents (loadAt 4 (fun _ => [9]) a 0 1 2).1 ≠ contents (loadAt 4 (fun _ => [9]) b 0 1 2).1 :=
  ⟨(run 4 (make 4 0 0 0).1 [.push 1, .push 2, .clear]).1, (make 4 0 0 0).1, ⟨by decide, by decide⟩, ⟨by decide, by decide⟩, by decide, by decide⟩

/-- negation: `num + offset` overflows. The check passes and memory outside of the array is accessed; a bounded vector throws. -/
theorem load_overflow {C : Nat} {a : Arr α} (h : Valid C a) (rd : List α → List α) (so : Nat) {num off : Nat} (h1 : 2 ^ 64 ≤ num + off) (h2 : (num + off) % 2 ^ 64 ≤ C) (h3 : C < 2 ^ 63) :
    (loadAt C rd a so num off).2 = .undefined := by
  unfold loadAt
  simp only
  rw [if_neg (by have := h.2; omega), if_pos (by have := h.1; omega)]

/-- an array which loads from itself, source before target: the elements between them are repeated -/
theorem self_load_get (off so : Nat) (m : List α) (hlt : so < off) : ∀ k, off + k ≤ m.length → ∀ j,
    (loadLoop id off so k m)[j]? = if off ≤ j ∧ j < off + k then m[so + (j - off) % (off - so)]? else m[j]? := by
  intro k
  induction k with
  | zero => intro _ j; simp only [loadLoop]; rw [if_neg (by omega)]
  | succ k ih =>
    intro h1 j
    have ihk := ih (by omega)
    have hrd : (loadLoop id off so k m)[so + k]? = m[so + k % (off - so)]? := by
      rw [ihk]
      by_cases hc : off ≤ so + k
      · rw [if_pos (by omega)]
        have : (so + k - off) % (off - so) = k % (off - so) := by
          conv_rhs => rw [show k = (so + k - off) + (off - so) by omega, Nat.add_mod_right]
        rw [this]
      · rw [if_neg (by omega), Nat.mod_eq_of_lt (by omega)]
    have hlt2 : so + k % (off - so) < m.length := by have := Nat.mod_lt k (by omega : off - so > 0); omega
    simp only [loadLoop, id]
    have hid : (loadLoop (fun a => a) off so k m) = loadLoop id off so k m := rfl
    rw [hrd, List.getElem?_eq_getElem hlt2]
    simp only
    rw [List.getElem?_set, loop_length]
    by_cases hj : off + k = j
    · rw [if_pos hj, if_pos (by omega), if_pos (by omega), show j - off = k by omega, List.getElem?_eq_getElem hlt2]
    · rw [if_neg hj, ihk]
      by_cases hc : off ≤ j ∧ j < off + k
      · rw [if_pos hc, if_pos (by omega)]
      · rw [if_neg hc, if_neg (by omega)]

/-- source behind target, or no overlap: as if loaded from a copy -/
theorem self_load_forward (off so : Nat) (m : List α) : ∀ k, (off ≤ so ∨ so + k ≤ off) → off + k ≤ m.length → so + k ≤ m.length → loadLoop id off so k m = loadLoop (fun _ => m) off so k m := by
  intro k
  induction k with
  | zero => intro _ _ _; rfl
  | succ k ih =>
    intro h h1 h2
    have hk := ih (by omega) (by omega) (by omega)
    have hrd : (loadLoop id off so k m)[so + k]? = m[so + k]? := by
      rw [hk, loop_get _ _ _ _ _ (by omega) (by omega), if_neg (by omega)]
    simp only [loadLoop, id]
    rw [hrd, hk]

/-- negation: overlapping loads differ from loads of a copy -/
theorem self_load_overlap : contents (loadAt 4 id (⟨[1, 2, 3, 4], 4⟩ : Arr Nat) 0 3 1).1 = [1, 1, 1, 1] ∧
    contents (loadAt 4 (fun _ => [1, 2, 3, 4]) (⟨[1, 2, 3, 4], 4⟩ : Arr Nat) 0 3 1).1 = [1, 1, 2, 3] := by decide

/-! ### bytes -/

theorem sum_take_succ (sizes : List Nat) (j : Nat) : memberOffset sizes (j + 1) = memberOffset sizes j + sizes.getD j 0 := by
  unfold memberOffset
  rw [List.take_add_one, List.sum_append]
  congr 1
  rw [List.getD_eq_getElem?_getD]
  cases h : sizes[j]? <;> simp

theorem offset_mono (sizes : List Nat) {j k : Nat} (h : j ≤ k) : memberOffset sizes j ≤ memberOffset sizes k := by
  induction k with
  | zero => rw [Nat.le_zero.1 h]
  | succ k ih =>
    by_cases hj : j = k + 1
    · rw [hj]
    · rw [sum_take_succ]; exact Nat.le_trans (ih (by omega)) (Nat.le_add_right _ _)

theorem offset_le (sizes : List Nat) (j : Nat) : memberOffset sizes j ≤ sizes.sum := by
  have h := offset_mono sizes (Nat.le_max_left j sizes.length)
  have : memberOffset sizes (max j sizes.length) = sizes.sum := by unfold memberOffset; rw [List.take_of_length_le (Nat.le_max_right _ _)]
  omega

/-- every member of every element has its own bytes within the storage -/
theorem bytes (sizes : List Nat) {C i i' j j' : Nat} (hi : i < C) (hi' : i' < C) :
    address sizes C i j + sizes.getD j 0 ≤ C * sizes.sum ∧
    ((i, j) ≠ (i', j') → address sizes C i j + sizes.getD j 0 ≤ address sizes C i' j' ∨ address sizes C i' j' + sizes.getD j' 0 ≤ address sizes C i j) := by
  have row : ∀ {i j}, i < C → address sizes C i j + sizes.getD j 0 ≤ C * memberOffset sizes (j + 1) := by
    intro i j h
    unfold address
    rw [sum_take_succ, Nat.mul_add]
    have : (i + 1) * sizes.getD j 0 ≤ C * sizes.getD j 0 := Nat.mul_le_mul_right _ h
    rw [Nat.add_mul, Nat.one_mul] at this
    omega
  refine ⟨Nat.le_trans (row hi) (Nat.mul_le_mul_left _ (offset_le _ _)), fun hne => ?_⟩
  rcases Nat.lt_trichotomy j j' with h | h | h
  · left
    refine Nat.le_trans (row hi) (Nat.le_trans (Nat.mul_le_mul_left C (offset_mono sizes h)) ?_)
    unfold address; omega
  · subst h
    have hn : i ≠ i' := fun h => hne (by rw [h])
    have key : ∀ {p q : Nat}, p < q → address sizes C p j + sizes.getD j 0 ≤ address sizes C q j := by
      intro p q h
      unfold address
      have : (p + 1) * sizes.getD j 0 ≤ q * sizes.getD j 0 := Nat.mul_le_mul_right _ h
      rw [Nat.add_mul, Nat.one_mul] at this
      omega
    rcases Nat.lt_or_gt_of_ne hn with h | h
    · exact .inl (key h)
    · exact .inr (key h)
  · right
    refine Nat.le_trans (row hi') (Nat.le_trans (Nat.mul_le_mul_left C (offset_mono sizes h)) ?_)
    unfold address; omega

/-- the first `byte_size()` bytes contain the array if it is full or empty … -/
theorem byte_size_full (sizes : List Nat) {C : Nat} {a : Arr α} (h : a.elements = C) {i : Nat} (hi : i < a.elements) (j : Nat) :
    address sizes C i j + sizes.getD j 0 ≤ byteSize sizes a := by
  subst h; exact (bytes sizes hi hi (j' := j)).1

/-- negation: … but never if it is neither and elements have more than one member: the last member (of size `s > 0`) of the last element lies behind them -/
theorem byte_size_too_small (sizes : List Nat) {s C : Nat} {a : Arr α} (h0 : 0 < a.elements) (h1 : a.elements < C) (h2 : 0 < sizes.sum) :
    byteSize (sizes ++ [s]) a < address (sizes ++ [s]) C (a.elements - 1) sizes.length + s := by
  have ho : memberOffset (sizes ++ [s]) sizes.length = sizes.sum := by unfold memberOffset; rw [List.take_left]
  have hg : (sizes ++ [s]).getD sizes.length 0 = s := by simp
  unfold byteSize address
  rw [ho, hg, List.sum_append, List.sum_singleton, Nat.mul_add]
  have e1 : (a.elements - 1) * s + s = a.elements * s := by
    conv_rhs => rw [show a.elements = (a.elements - 1) + 1 by omega, Nat.add_mul, Nat.one_mul]
  have e2 : a.elements * sizes.sum < C * sizes.sum := Nat.mul_lt_mul_of_pos_right h1 h2
  omega

/-! ### examples -/

/-- pushes beyond the capacity, removals, a load in the middle, one which doesn't fit, an assignment from a larger array -/
example : run 4 (make 4 0 2 7).1 [.push 1, .push 2, .push 3, .pop, .loadAt [5, 6, 7, 8] 1 2 1, .load [9, 9] 0 2, .set 0 3, .assign ⟨[1, 2, 3, 4, 5, 6], 5⟩, .assign ⟨[1, 2, 3, 4, 5, 6], 1⟩, .pop, .pop] =
    (⟨[1, 6, 7, 2], 0⟩, [.ok, .ok, .thrown, .ok, .ok, .thrown, .ok, .thrown, .ok, .ok, .thrown]) := by decide

example : specRun 4 [7, 7] [.push 1, .push 2, .push 3, .pop, .loadAt [5, 6, 7, 8] 1 2 1, .load [9, 9] 0 2] = some ([7, 6, 7], [false, false, true, false, false, true]) := by decide

example : (make 4 0 5 1).2 = .undefined ∧ make 4 0 (2 ^ 32) 1 = (⟨[0, 0, 0, 0], 2 ^ 32⟩, .ok) := by decide

example : (loadAt 4 (fun _ => [9]) (⟨[1, 2, 3, 4], 2⟩ : Arr Nat) 0 1 (2 ^ 64 - 1)).2 = .undefined := by decide

/-- two integers per element, one of four elements present: its second member is in bytes 16 to 19, `byte_size()` is 8 -/
example : byteSize [4, 4] (⟨[1, 2, 3, 4], 1⟩ : Arr Nat) = 8 ∧ address [4, 4] 4 0 1 = 16 := by decide

end LGD.C79
