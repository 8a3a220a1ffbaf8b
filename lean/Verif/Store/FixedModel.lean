import Mathlib.Data.List.Basic

/-!
# `FixedArray`

`none` stands for undefined behaviour (access outside of `store`). Operations return whether an exception was thrown, along with the array afterwards.
-/

namespace LGD.FixedA

/-- members of `FixedArray<T, SIZE>` (fixedarray.h:188-189); the length of `store` is `SIZE`. `elements` is a `size_t`. -/
structure FA (α : Type) where
  store : List α
  elements : Nat

variable {α : Type}

/-- the range of `std::size_t` on the supported platforms -/
def sizeMod : Nat := 2 ^ 64

/-- result of an operation: exception thrown, array -/
abbrev Res (α : Type) := Option (Bool × FA α)

/-- `FixedArray(elements)` (fixedarray.h:32-34): no check. The initial content of `store` is arbitrary. -/
def make (store : List α) (elements : Nat) : FA α := ⟨store, elements⟩

/-- `FixedArray(elements, value)` (fixedarray.h:36-40) -/
def makeFill (store : List α) (elements : Nat) (value : α) : Option (FA α) :=
  if elements ≤ store.length then some ⟨List.replicate elements value ++ store.drop elements, elements⟩ else none

/-- `operator[]` (fixedarray.h:42-50) -/
def get (a : FA α) (i : Nat) : Option α := a.store[i]?

/-- assignment to `operator[]` -/
def set (a : FA α) (i : Nat) (v : α) : Res α := if i < a.store.length then some (false, { a with store := a.store.set i v }) else none

/-- `push_back` (fixedarray.h:77-83), `operator<<` (fixedarray.h:85-89) -/
def push (a : FA α) (v : α) : Res α :=
  if a.store.length ≤ a.elements then some (true, a) else some (false, ⟨a.store.set a.elements v, a.elements + 1⟩)

/-- the loop in `operator+=` (fixedarray.h:116-118) for a different object: `m` iterations remain, an exception of `push_back` leaves the loop -/
def appendLoop (other : FA α) : Nat → Nat → FA α → Res α
  | 0, _, a => some (false, a)
  | m + 1, i, a => (get other i).bind fun v => (push a v).bind fun r => if r.1 then some r else appendLoop other m (i + 1) r.2

/-- `operator+=` (fixedarray.h:110-121) for a different object -/
def append (a other : FA α) : Res α :=
  if a.store.length < a.elements + other.elements then some (true, a) else appendLoop other other.elements 0 a

/-- the loop in `operator+=` for `a += a`: `other.elements` grows with each iteration -/
def selfLoop : Nat → Nat → FA α → Res α
  | 0, _, _ => none
  | fuel + 1, i, a =>
    if i < a.elements then (get a i).bind fun v => (push a v).bind fun r => if r.1 then some r else selfLoop fuel (i + 1) r.2
    else some (false, a)

/-- `operator+=` with itself; the loop ends after at most `SIZE + 1` iterations -/
def appendSelf (a : FA α) : Res α :=
  if a.store.length < a.elements + a.elements then some (true, a) else selfLoop (a.store.length + 2) 0 a

/-- `operator+` (fixedarray.h:91-108): the result is built in a new array with arbitrary store -/
def plus (store : List α) (a other : FA α) : Option (Bool × FA α) :=
  if a.store.length < a.elements + other.elements then some (true, make store 0)
  else (appendLoop a a.elements 0 (make store 0)).bind fun r => if r.1 then some r else appendLoop other other.elements 0 r.2

/-- the loop in `operator==` (fixedarray.h:130-134); `eq` is the comparison of elements -/
def eqLoop (eq : α → α → Bool) (a b : FA α) : Nat → Nat → Option Bool
  | 0, _ => some true
  | m + 1, i => (get a i).bind fun x => (get b i).bind fun y => if eq x y then eqLoop eq a b m (i + 1) else some false

/-- `operator==` (fixedarray.h:123-137) -/
def equal (eq : α → α → Bool) (a b : FA α) : Option Bool := if a.elements ≠ b.elements then some false else eqLoop eq a b a.elements 0

/-- `clear` (fixedarray.h:144-147) -/
def clear (a : FA α) : Res α := some (false, { a with elements := 0 })

/-- the loop in `erase` and `remove` (fixedarray.h:151-153, 160-162): the pointer `i` runs until it equals `end() - 1` -/
def shiftLoop (a : FA α) : Nat → Nat → List α → Option (List α)
  | 0, _, _ => none
  | fuel + 1, i, st =>
    if (i : Int) = (a.elements : Int) - 1 then some st
    else (st[i + 1]?).bind fun v => if i < st.length then shiftLoop a fuel (i + 1) (st.set i v) else none

/-- `erase(begin() + index)` (fixedarray.h:149-156), `remove(index)` (fixedarray.h:158-165) -/
def remove (a : FA α) (index : Nat) : Res α :=
  (shiftLoop a (a.store.length + 1) index a.store).map fun st => (false, ⟨st, (a.elements + sizeMod - 1) % sizeMod⟩)

/-- `reserve` (fixedarray.h:167-174) -/
def reserve (a : FA α) (num : Int) : Res α := if (a.store.length : Int) < num then some (true, a) else some (false, a)

/-- `resize` (fixedarray.h:176-180): the `int` is converted to `size_t` -/
def resize (a : FA α) (num : Int) : Res α :=
  (reserve a num).bind fun r => if r.1 then some r else some (false, { r.2 with elements := (num % sizeMod).toNat })

end LGD.FixedA
