import Verif.Store.FixedModel

/-!
# C35: `FixedArray`

Specification: a list with a maximum length.
-/

namespace LGD.C35
open LGD.FixedA

variable {α : Type}

/-! ## specification -/

/-- operations on a list of at most `size` elements -/
inductive Op (α : Type) where
  | push (v : α)
  | append (m : List α)
  | remove (i : Nat)
  | set (i : Nat) (v : α)
  | clear
  | reserve (num : Int)
  | resize (num : Int)

/-- preconditions: indices refer to existing elements, sizes are not negative, and an appended array does not exceed its own capacity -/
def Op.Pre (size : Nat) (l : List α) : Op α → Prop
  | .append m => m.length ≤ size
  | .remove i => i < l.length
  | .set i _ => i < l.length
  | .resize num => 0 ≤ num
  | _ => True

/-- does the operation exceed the capacity? -/
def Op.Over (size : Nat) (l : List α) : Op α → Prop
  | .push _ => size < l.length + 1
  | .append m => size < l.length + m.length
  | .reserve num => (size : Int) < num
  | .resize num => (size : Int) < num
  | _ => False

/-- the list afterwards, if the capacity is not exceeded. Elements which appear by `resize` are unspecified. -/
def Op.Post (l l' : List α) : Op α → Prop
  | .push v => l' = l ++ [v]
  | .append m => l' = l ++ m
  | .remove i => l' = l.eraseIdx i
  | .set i v => l' = l.set i v
  | .clear => l' = []
  | .reserve _ => l' = l
  | .resize num => (l'.length : Int) = num ∧ ∀ i, i < l.length → i < l'.length → l'[i]? = l[i]?

/-- one step: `thrown` iff the capacity would be exceeded; then the content is unchanged -/
def Step (size : Nat) (l : List α) (op : Op α) (thrown : Bool) (l' : List α) : Prop :=
  (op.Over size l → thrown = true ∧ l' = l) ∧ (¬ op.Over size l → thrown = false ∧ op.Post l l')

/-- a history: for each operation, whether it throws, and the content afterwards -/
inductive History (size : Nat) : List α → List (Op α × Bool × List α) → Prop where
  | nil (l) : History size l []
  | cons {l op t l' h} : Step size l op t l' → History size l' h → History size l ((op, t, l') :: h)

/-! ## the code -/

/-- the elements of an array -/
def content (a : FA α) : List α := a.store.take a.elements

/-- an array within its capacity -/
structure OK (size : Nat) (a : FA α) : Prop where
  len : a.store.length = size
  le : a.elements ≤ size

/-- what the code does; the argument of `append` is another array with some content -/
def exec (op : Op α) (other : FA α) (a : FA α) : Res α :=
  match op with
  | .push v => push a v
  | .append _ => append a other
  | .remove i => FixedA.remove a i
  | .set i v => FixedA.set a i v
  | .clear => clear a
  | .reserve k => reserve a k
  | .resize k => resize a k

/-- the other array holds the appended list -/
def Arg (size : Nat) (op : Op α) (other : FA α) : Prop :=
  match op with
  | .append m => OK size other ∧ content other = m
  | _ => True

theorem content_length {size : Nat} {a : FA α} (h : OK size a) : (content a).length = a.elements := by
  unfold content
  rw [List.length_take, h.len]
  have := h.le
  omega

theorem push_ok {size : Nat} {a : FA α} (h : OK size a) (v : α) (hl : a.elements < size) :
    ∃ a', push a v = some (false, a') ∧ OK size a' ∧ content a' = content a ++ [v] := by
  refine ⟨⟨a.store.set a.elements v, a.elements + 1⟩, ?_, ⟨by simpa using h.len, by simp only; omega⟩, ?_⟩
  · unfold push
    rw [if_neg (by rw [h.len]; omega)]
  · unfold content
    simp only
    rw [List.take_succ, List.getElem?_set_self (by rw [h.len]; omega)]
    simp only [Option.toList_some]
    rw [List.take_set_of_le (Nat.le_refl _)]

theorem appendLoop_ok {size : Nat} {other : FA α} (ho : OK size other) (m : Nat) : ∀ (i : Nat) (a : FA α), OK size a → i + m = other.elements → a.elements + m ≤ size →
    ∃ a', appendLoop other m i a = some (false, a') ∧ OK size a' ∧ content a' = content a ++ (content other).drop i := by
  induction m with
  | zero =>
    intro i a ha hi _
    refine ⟨a, rfl, ha, ?_⟩
    rw [List.drop_eq_nil_of_le (by rw [content_length ho]; omega), List.append_nil]
  | succ m ih =>
    intro i a ha hi hle
    have hlt : i < other.store.length := by rw [ho.len]; have := ho.le; omega
    obtain ⟨a1, e1, h1, h2⟩ := push_ok ha (other.store[i]) (by omega)
    have he : a1.elements = a.elements + 1 := by
      have := congrArg List.length h2
      rw [content_length h1, List.length_append, content_length ha] at this
      simpa using this
    obtain ⟨a2, e2, h3, h4⟩ := ih (i + 1) a1 h1 (by omega) (by omega)
    refine ⟨a2, ?_, h3, ?_⟩
    · rw [appendLoop]
      unfold FixedA.get
      rw [List.getElem?_eq_getElem hlt, Option.bind_some, e1, Option.bind_some]
      simpa using e2
    · rw [h4, h2, List.append_assoc]
      congr 1
      have hlt' : i < (content other).length := by rw [content_length ho]; omega
      rw [List.drop_eq_getElem_cons hlt']
      simp [content]

theorem shiftLoop_ok {size : Nat} {a : FA α} (h : OK size a) (k : Nat) : ∀ (fuel i : Nat) (st : List α), i + k + 1 = a.elements → k < fuel → st.length = size →
    ∃ st', shiftLoop a fuel i st = some st' ∧ st'.length = size ∧ ∀ j, st'[j]? = if i ≤ j ∧ j < a.elements - 1 then st[j + 1]? else st[j]? := by
  induction k with
  | zero =>
    intro fuel i st hi hf hl
    obtain ⟨fuel, rfl⟩ : ∃ f, fuel = f + 1 := ⟨fuel - 1, by omega⟩
    refine ⟨st, ?_, hl, fun j => ?_⟩
    · rw [shiftLoop, if_pos (by omega)]
    · rw [if_neg (by omega)]
  | succ k ih =>
    intro fuel i st hi hf hl
    obtain ⟨fuel, rfl⟩ : ∃ f, fuel = f + 1 := ⟨fuel - 1, by omega⟩
    have := h.le
    have hlt : i + 1 < st.length := by omega
    obtain ⟨st', e, h1, h2⟩ := ih fuel (i + 1) (st.set i st[i + 1]) (by omega) (by omega) (by simpa using hl)
    refine ⟨st', ?_, h1, fun j => ?_⟩
    · rw [shiftLoop, if_neg (by omega), List.getElem?_eq_getElem hlt, Option.bind_some, if_pos (by omega), e]
    · rw [h2 j]
      by_cases c1 : i + 1 ≤ j ∧ j < a.elements - 1
      · rw [if_pos c1, if_pos (by omega), List.getElem?_set_ne (by omega)]
      · rw [if_neg c1]
        by_cases c2 : i = j
        · subst c2
          rw [List.getElem?_set_self (by omega), if_pos (by omega), List.getElem?_eq_getElem hlt]
        · rw [List.getElem?_set_ne c2, if_neg (by omega)]

theorem exec_ok {size : Nat} (hsize : size < 2 ^ 31) {a other : FA α} (h : OK size a) (op : Op α) (hp : op.Pre size (content a)) (ha : Arg size op other) :
    ∃ t a', exec op other a = some (t, a') ∧ OK size a' ∧ Step size (content a) op t (content a') := by
  have hlen := content_length h
  have hle := h.le
  cases op with
  | push v =>
    by_cases hc : a.elements < size
    · obtain ⟨a', e, h1, h2⟩ := push_ok h v hc
      exact ⟨false, a', e, h1, fun hh => by simp only [Op.Over] at hh; omega, fun _ => ⟨rfl, h2⟩⟩
    · refine ⟨true, a, ?_, h, fun _ => ⟨rfl, rfl⟩, fun hh => by simp only [Op.Over] at hh; omega⟩
      simp only [exec, push]
      rw [if_pos (by rw [h.len]; omega)]
  | append m =>
    obtain ⟨ho, rfl⟩ := ha
    have hol := content_length ho
    simp only [exec, append]
    rw [h.len]
    by_cases hc : size < a.elements + other.elements
    · rw [if_pos hc]
      exact ⟨true, a, rfl, h, fun _ => ⟨rfl, rfl⟩, fun hh => by simp only [Op.Over] at hh; omega⟩
    · rw [if_neg hc]
      obtain ⟨a', e, h1, h2⟩ := appendLoop_ok ho other.elements 0 a h (by omega) (by omega)
      refine ⟨false, a', e, h1, fun hh => by simp only [Op.Over] at hh; omega, fun _ => ⟨rfl, ?_⟩⟩
      simpa [Op.Post] using h2
  | remove i =>
    simp only [Op.Pre] at hp
    obtain ⟨st', e, h1, h2⟩ := shiftLoop_ok h (a.elements - i - 1) (a.store.length + 1) i a.store (by omega) (by rw [h.len]; omega) h.len
    have hm : (a.elements + sizeMod - 1) % sizeMod = a.elements - 1 := by
      unfold sizeMod
      omega
    refine ⟨false, ⟨st', a.elements - 1⟩, ?_, ⟨h1, by simp only; omega⟩, fun hh => hh.elim, fun _ => ⟨rfl, ?_⟩⟩
    · simp only [exec, FixedA.remove]
      rw [e, hm]
      rfl
    · simp only [Op.Post, content]
      apply List.ext_getElem?
      intro j
      rw [List.getElem?_eraseIdx]
      by_cases c1 : j < a.elements - 1
      · rw [List.getElem?_take_of_lt c1, h2 j]
        by_cases c2 : j < i
        · rw [if_pos c2, if_neg (by omega), List.getElem?_take_of_lt (by omega)]
        · rw [if_neg c2, if_pos (by omega), List.getElem?_take_of_lt (by omega)]
      · rw [List.getElem?_take_eq_none (by omega)]
        split
        · omega
        · rw [List.getElem?_take_eq_none (by omega)]
  | set i v =>
    simp only [Op.Pre] at hp
    refine ⟨false, { a with store := a.store.set i v }, ?_, ⟨by simpa using h.len, hle⟩, fun hh => hh.elim, fun _ => ⟨rfl, ?_⟩⟩
    · simp only [exec, FixedA.set]
      rw [if_pos (by rw [h.len]; omega)]
    · simp only [Op.Post, content]
      rw [List.take_set]
  | clear => exact ⟨false, _, rfl, ⟨h.len, Nat.zero_le _⟩, fun hh => hh.elim, fun _ => ⟨rfl, by simp [Op.Post, content]⟩⟩
  | reserve k =>
    simp only [exec, reserve]
    rw [h.len]
    by_cases hc : (size : Int) < k
    · rw [if_pos hc]
      exact ⟨true, a, rfl, h, fun _ => ⟨rfl, rfl⟩, fun hh => (hh hc).elim⟩
    · rw [if_neg hc]
      exact ⟨false, a, rfl, h, fun hh => (hc hh).elim, fun _ => ⟨rfl, rfl⟩⟩
  | resize k =>
    simp only [Op.Pre] at hp
    simp only [exec, resize, reserve]
    rw [h.len]
    by_cases hc : (size : Int) < k
    · rw [if_pos hc]
      exact ⟨true, a, rfl, h, fun _ => ⟨rfl, rfl⟩, fun hh => (hh hc).elim⟩
    · rw [if_neg hc]
      have hk : ((k % (sizeMod : Int)).toNat : Int) = k := by
        rw [Int.emod_eq_of_lt hp (by unfold sizeMod; omega)]
        omega
      have hk' : OK size { a with elements := (k % (sizeMod : Int)).toNat } := ⟨h.len, by simp only; omega⟩
      refine ⟨false, { a with elements := (k % (sizeMod : Int)).toNat }, rfl, hk', fun hh => (hc hh).elim, fun _ => ⟨rfl, ?_, ?_⟩⟩
      · rw [content_length hk']
        exact hk
      · intro i h1 h2
        rw [content_length hk'] at h2
        simp only [content] at h2 ⊢
        rw [List.getElem?_take_of_lt h2, List.getElem?_take_of_lt (by omega)]

/-- the code, one operation after the other; exceptions are caught -/
def run : List (Op α × FA α) → FA α → Option (List (Op α × Bool × List α))
  | [], _ => some []
  | (op, other) :: ops, a => (exec op other a).bind fun r => (run ops r.2).map fun h => (op, r.1, content r.2) :: h

/-- the preconditions of a history, in terms of the lists only -/
def Legal (size : Nat) : List α → List (Op α × FA α) → Prop
  | _, [] => True
  | l, (op, other) :: ops => op.Pre size l ∧ Arg size op other ∧ ∀ t l', Step size l op t l' → Legal size l' ops

/-- **C35.** Any history of operations on an array behaves as the bounded list does: exceptions are raised if and only if the capacity would be exceeded, and leave the content as it is; there is no
access outside of the array. -/
theorem history_partial {size : Nat} (hsize : size < 2 ^ 31) (ops : List (Op α × FA α)) : ∀ (a : FA α), OK size a → Legal size (content a) ops →
    ∃ h, run ops a = some h ∧ History size (content a) h ∧ h.map (fun e => e.1) = ops.map (fun o => o.1) := by
  induction ops with
  | nil => intro a _ _; exact ⟨[], rfl, History.nil _, rfl⟩
  | cons o ops ih =>
    obtain ⟨op, other⟩ := o
    intro a ha hl
    obtain ⟨h1, h2, h3⟩ := hl
    obtain ⟨t, a', e, h4, h5⟩ := exec_ok hsize ha op h1 h2
    obtain ⟨h, e2, h6, h7⟩ := ih a' h4 (h3 t _ h5)
    refine ⟨_, by rw [run, e, Option.bind_some, e2]; rfl, History.cons h5 h6, ?_⟩
    simp only [List.map_cons, h7]

/-- **C35, construction.** `FixedArray(k)` for `k` within the capacity has `k` elements (of unspecified content), `FixedArray(k, v)` is filled with `v`. -/
theorem construct {size : Nat} (store : List α) (hs : store.length = size) (k : Nat) (hk : k ≤ size) (v : α) :
    (OK size (make store k) ∧ (content (make store k)).length = k) ∧ ∃ a, makeFill store k v = some a ∧ OK size a ∧ content a = List.replicate k v := by
  have h1 : OK size (make store k) := ⟨hs, hk⟩
  refine ⟨⟨h1, content_length h1⟩, ⟨_, if_pos (by omega), ⟨?_, hk⟩, ?_⟩⟩
  · simp only [List.length_append, List.length_replicate, List.length_drop]
    omega
  · simp [content]

/-- **C35, concatenation.** `a + b` throws if the capacity would be exceeded, and otherwise returns the concatenation. -/
theorem concatenation {size : Nat} (store : List α) (hs : store.length = size) (a b : FA α) (ha : OK size a) (hb : OK size b) :
    ∃ t r, plus store a b = some (t, r) ∧ (size < (content a).length + (content b).length → t = true) ∧
      ((content a).length + (content b).length ≤ size → t = false ∧ OK size r ∧ content r = content a ++ content b) := by
  have hla := content_length ha
  have hlb := content_length hb
  unfold plus
  rw [ha.len]
  by_cases hc : size < a.elements + b.elements
  · rw [if_pos hc]
    exact ⟨true, _, rfl, fun _ => rfl, fun h => by omega⟩
  · rw [if_neg hc]
    have h0 : OK size (make store 0) := ⟨hs, Nat.zero_le _⟩
    have c0 : content (make store 0) = [] := by simp [content, make]
    obtain ⟨a1, e1, h1, h2⟩ := appendLoop_ok ha a.elements 0 (make store 0) h0 (by omega) (by simp only [make]; omega)
    have hl1 : a1.elements = a.elements := by
      have := congrArg List.length h2
      rw [content_length h1, c0] at this
      simpa [hla] using this
    obtain ⟨a2, e2, h3, h4⟩ := appendLoop_ok hb b.elements 0 a1 h1 (by omega) (by omega)
    refine ⟨false, a2, ?_, fun h => by omega, fun _ => ⟨rfl, h3, ?_⟩⟩
    · rw [e1, Option.bind_some]
      exact e2
    · rw [h4, h2, c0]
      simp

theorem eqLoop_spec (eq : α → α → Bool) (heq : ∀ x y, eq x y = true ↔ x = y) {sa sb : Nat} (a b : FA α) (ha : OK sa a) (hb : OK sb b) (hab : a.elements = b.elements) (m : Nat) :
    ∀ i, i + m = a.elements → ∃ r, eqLoop eq a b m i = some r ∧ (r = true ↔ (content a).drop i = (content b).drop i) := by
  have hla := content_length ha
  have hlb := content_length hb
  induction m with
  | zero =>
    intro i hi
    refine ⟨true, rfl, fun _ => ?_, fun _ => rfl⟩
    rw [List.drop_eq_nil_of_le (by omega), List.drop_eq_nil_of_le (by omega)]
  | succ m ih =>
    intro i hi
    have h1 : i < a.store.length := by rw [ha.len]; have := ha.le; omega
    have h2 : i < b.store.length := by rw [hb.len]; have := hb.le; omega
    rw [eqLoop]
    unfold FixedA.get
    rw [List.getElem?_eq_getElem h1, List.getElem?_eq_getElem h2, Option.bind_some, Option.bind_some]
    have d1 : (content a).drop i = a.store[i] :: (content a).drop (i + 1) := by
      rw [List.drop_eq_getElem_cons (by omega)]
      simp [content]
    have d2 : (content b).drop i = b.store[i] :: (content b).drop (i + 1) := by
      rw [List.drop_eq_getElem_cons (by omega)]
      simp [content]
    rw [d1, d2]
    by_cases hx : eq a.store[i] b.store[i] = true
    · rw [if_pos hx]
      obtain ⟨r, e, h⟩ := ih (i + 1) (by omega)
      refine ⟨r, e, ?_⟩
      rw [h, (heq _ _).1 hx]
      simp
    · rw [if_neg hx]
      refine ⟨false, rfl, fun h => (by cases h), fun h => ?_⟩
      exact (hx ((heq _ _).2 (List.cons.inj h).1)).elim

/-- **C35, comparison**, also for different capacities -/
theorem comparison (eq : α → α → Bool) (heq : ∀ x y, eq x y = true ↔ x = y) {sa sb : Nat} (a b : FA α) (ha : OK sa a) (hb : OK sb b) :
    ∃ r, equal eq a b = some r ∧ (r = true ↔ content a = content b) := by
  unfold equal
  by_cases hc : a.elements = b.elements
  · rw [if_neg (by simpa using hc)]
    obtain ⟨r, e, h⟩ := eqLoop_spec eq heq a b ha hb hc a.elements 0 (by omega)
    exact ⟨r, e, by simpa using h⟩
  · rw [if_pos hc]
    refine ⟨false, rfl, fun h => (by cases h), fun h => ?_⟩
    have := congrArg List.length h
    rw [content_length ha, content_length hb] at this
    exact (hc this).elim

/-! ## deviations -/

theorem selfLoop_full (size : Nat) (k : Nat) : ∀ (fuel i : Nat) (a : FA α), OK size a → a.elements + k = size → k + 1 < fuel → i < a.elements →
    ∃ a', selfLoop fuel i a = some (true, a') ∧ OK size a' ∧ a'.elements = size := by
  induction k with
  | zero =>
    intro fuel i a ha hk hf hi
    obtain ⟨fuel, rfl⟩ : ∃ f, fuel = f + 1 := ⟨fuel - 1, by omega⟩
    refine ⟨a, ?_, ha, by omega⟩
    have hlt : i < a.store.length := by rw [ha.len]; omega
    rw [selfLoop, if_pos hi]
    unfold FixedA.get push
    rw [List.getElem?_eq_getElem hlt, Option.bind_some, if_pos (by rw [ha.len]; omega)]
    rfl
  | succ k ih =>
    intro fuel i a ha hk hf hi
    obtain ⟨fuel, rfl⟩ : ∃ f, fuel = f + 1 := ⟨fuel - 1, by omega⟩
    have hlt : i < a.store.length := by rw [ha.len]; omega
    obtain ⟨a1, e1, h1, h2⟩ := push_ok ha (a.store[i]) (by omega)
    have he : a1.elements = a.elements + 1 := by
      have := congrArg List.length h2
      rw [content_length h1, List.length_append, content_length ha] at this
      simpa using this
    obtain ⟨a', e2, h3, h4⟩ := ih fuel (i + 1) a1 h1 (by omega) (by omega) (by omega)
    refine ⟨a', ?_, h3, h4⟩
    rw [selfLoop, if_pos hi]
    unfold FixedA.get
    rw [List.getElem?_eq_getElem hlt, Option.bind_some, e1, Option.bind_some]
    simpa using e2

/-- **C35, deviation.** Appending a non-empty array to itself always throws, even if the capacity suffices for twice its size, and then it fills the array up to its capacity. -/
theorem append_self_negation {size : Nat} (a : FA α) (ha : OK size a) (h0 : 0 < a.elements) (h2 : a.elements + a.elements ≤ size) :
    ∃ a', appendSelf a = some (true, a') ∧ (content a').length = size ∧ content a' ≠ content a := by
  unfold appendSelf
  rw [ha.len, if_neg (by omega)]
  obtain ⟨a', e, h1, h3⟩ := selfLoop_full size (size - a.elements) (size + 2) 0 a ha (by omega) (by omega) h0
  have hl := content_length h1
  refine ⟨a', e, by omega, fun h => ?_⟩
  have := congrArg List.length h
  rw [hl, content_length ha] at this
  omega

/-- **C35, deviation.** The constructor and `resize` with a negative argument leave an array whose size exceeds its capacity, without an exception. -/
theorem unchecked_size_negation (store : List α) (hs : store.length < 2 ^ 31) :
    store.length < (make store (store.length + 1)).elements ∧ ∀ a : FA α, OK store.length a → ∃ a', resize a (-1) = some (false, a') ∧ store.length < a'.elements := by
  refine ⟨by simp [make], fun a ha => ⟨⟨a.store, ((-1 : Int) % (sizeMod : Int)).toNat⟩, ?_, ?_⟩⟩
  · simp only [resize, reserve]
    rw [if_neg (by omega)]
    rfl
  · have : ((-1 : Int) % (sizeMod : Int)).toNat = 2 ^ 64 - 1 := by decide
    simp only [this]
    omega

/-! ## examples -/

/-- a history with exceptions on an array of capacity 3 -/
example : (run [(.push 1, ⟨[0, 0, 0], 0⟩), (.append [5, 6], ⟨[5, 6, 9], 2⟩), (.push 7, ⟨[0, 0, 0], 0⟩), (.remove 0, ⟨[0, 0, 0], 0⟩), (.append [5, 6], ⟨[5, 6, 9], 2⟩), (.resize 3, ⟨[0, 0, 0], 0⟩)]
      (make [0, 0, 0] 0)).map (fun h => h.map fun e => e.2) =
    some [(false, [1]), (false, [1, 5, 6]), (true, [1, 5, 6]), (false, [5, 6]), (true, [5, 6]), (false, [5, 6, 6])] := by
  decide

/-- its preconditions are met -/
example : OK 3 (make [0, 0, 0] 0) ∧ Legal 3 (content (make [0, 0, 0] 0)) [(.push 1, ⟨[0, 0, 0], 0⟩), (.append [5, 6], ⟨[5, 6, 9], 2⟩), (.remove 0, ⟨[0, 0, 0], 0⟩)] := by
  refine ⟨⟨rfl, by decide⟩, trivial, trivial, fun t l h => ?_⟩
  obtain ⟨_, rfl⟩ := h.2 (by simp [Op.Over, content, make])
  refine ⟨by simp [Op.Pre], ⟨⟨rfl, by decide⟩, rfl⟩, fun t l h => ?_⟩
  obtain ⟨_, rfl⟩ := h.2 (by simp [Op.Over, content, make])
  exact ⟨by simp [Op.Pre, content, make], trivial, fun _ _ _ => trivial⟩

/-- an array which may be appended to itself as far as its capacity is concerned -/
example : appendSelf (⟨[1, 2, 0, 0, 0], 2⟩ : FA Nat) = some (true, ⟨[1, 2, 1, 2, 1], 5⟩) := by rfl

end LGD.C35
