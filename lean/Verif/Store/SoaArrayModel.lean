import Mathlib.Data.List.Basic

/-!
# `LibFlatArray::soa_array`

`C` is the compile time capacity (`SIZE`). An element is abstract: its members live in separate arrays of length `C`. Elements are taken to be trivially copyable, as the class uses "PoD-style copy semantics"
(soa_array.hpp:44-46). Operations return the state they leave behind together with the way they ended, so states after exceptions are visible. `std::size_t` has 64 bits, `int` 32.
-/

namespace LGD.SoaArr

/-- how an operation ends: normally, with `std::out_of_range`, or with an access outside of the array -/
inductive Res
  | ok
  | thrown
  | undefined
deriving DecidableEq, Repr

variable {α : Type}

/-- members (soa_array.hpp:270-272) -/
structure Arr (α : Type) where
  mem : List α
  elements : Nat
deriving DecidableEq, Repr

/-- the conversion `int(elements)`, negative values stop the loop at once -/
def toInt (n : Nat) : Nat := if n % 2 ^ 32 < 2 ^ 31 then n % 2 ^ 32 else 0

/-- constructor (soa_array.hpp:60-68): the capacity is not checked -/
def make (C : Nat) (dflt : α) (n : Nat) (v : α) : Arr α × Res :=
  if toInt n ≤ C then (⟨List.replicate (toInt n) v ++ List.replicate (C - toInt n) dflt, n⟩, .ok) else (⟨List.replicate C v, n⟩, .undefined)

/-- `operator[]` and `at` (soa_array.hpp:118-158): the index is not compared to `elements` -/
def get (a : Arr α) (i : Nat) : Option α := a.mem[i]?

/-- assignment to `operator[]` -/
def set (a : Arr α) (i : Nat) (x : α) : Arr α × Res := if i < a.mem.length then ({ a with mem := a.mem.set i x }, .ok) else (a, .undefined)

/-- `operator<<`, `push_back` (soa_array.hpp:160-173, 246-251) -/
def push (C : Nat) (a : Arr α) (x : α) : Arr α × Res :=
  if C ≤ a.elements then (a, .thrown)
  else match set a a.elements x with
    | (b, .ok) => ({ b with elements := b.elements + 1 }, .ok)
    | r => r

/-- one after the other, `count` members are copied (macros.hpp:183-192). `rd` yields the memory of the source, which is the target itself if an array loads from itself. -/
def loadLoop (rd : List α → List α) (off so : Nat) : Nat → List α → List α
  | 0, m => m
  | k + 1, m =>
    let m' := loadLoop rd off so k m
    match (rd m')[so + k]? with
    | some x => m'.set (off + k) x
    | none => m'

/-- `load(accessor, num, offset)` (soa_array.hpp:183-196), `so` is the index of the accessor -/
def loadAt (C : Nat) (rd : List α → List α) (a : Arr α) (so num off : Nat) : Arr α × Res :=
  let newElements := max a.elements ((num + off) % 2 ^ 64)
  if C < newElements then (a, .thrown)
  else if a.mem.length < off + num ∨ (rd a.mem).length < so + num then (a, .undefined)
  else (⟨loadLoop rd off so num a.mem, newElements⟩, .ok)

/-- `load(accessor, num)` (soa_array.hpp:175-181) -/
def load (C : Nat) (rd : List α → List α) (a : Arr α) (so num : Nat) : Arr α × Res := loadAt C rd a so num a.elements

/-- `clear` (soa_array.hpp:198-203) -/
def clear (a : Arr α) : Arr α := { a with elements := 0 }

/-- `back` (soa_array.hpp:212-217); for empty arrays the index wraps around -/
def back (a : Arr α) : Option α := if a.elements = 0 then none else get a (a.elements - 1)

/-- `pop_back` (soa_array.hpp:233-244) -/
def pop (a : Arr α) : Arr α × Res := if a.elements = 0 then (a, .thrown) else ({ a with elements := a.elements - 1 }, .ok)

/-- `copy_in` (soa_array.hpp:283-294; `std::copy` per member, macros.hpp:250-256), used by the assignment operators for arrays of any capacity (soa_array.hpp:99-116) -/
def copyIn (C : Nat) (a other : Arr α) : Arr α × Res :=
  if C < other.elements then (a, .thrown)
  else if other.mem.length < other.elements ∨ a.mem.length < other.elements then (a, .undefined)
  else (⟨other.mem.take other.elements ++ a.mem.drop other.elements, other.elements⟩, .ok)

/-- copy constructors for other capacities (soa_array.hpp:70-88) -/
def copyFrom (C : Nat) (dflt : α) (other : Arr α) : Arr α × Res := copyIn C ⟨List.replicate C dflt, 0⟩ other

/-- `begin()` up to `end()` (soa_array.hpp:219-231): the elements the accessors with these indices refer to -/
def visited (a : Arr α) : List (Option α) := (List.range a.elements).map (get a)

/-- `swap` (soa_array.hpp:302-308) -/
def swap (a b : Arr α) : Arr α × Arr α := (⟨b.mem, b.elements⟩, ⟨a.mem, a.elements⟩)

/-! ### bytes -/

/-- the members of an element have these sizes; `offset<CELL, j>::OFFSET` is the size of the members before member `j` -/
def memberOffset (sizes : List Nat) (j : Nat) : Nat := (sizes.take j).sum

/-- address of member `j` of element `i` relative to `data()` (macros.hpp:92-106) -/
def address (sizes : List Nat) (C i j : Nat) : Nat := C * memberOffset sizes j + i * sizes.getD j 0

/-- `byte_size` (soa_array.hpp:265-268) -/
def byteSize (sizes : List Nat) (a : Arr α) : Nat := a.elements * sizes.sum

/-! ### programs -/

/-- operations of the interface -/
inductive Op (α : Type)
  | push (x : α)
  | pop
  | clear
  | set (i : Nat) (x : α)
  | loadAt (src : List α) (so num off : Nat)
  | load (src : List α) (so num : Nat)
  | assign (other : Arr α)

def step (C : Nat) (a : Arr α) : Op α → Arr α × Res
  | .push x => push C a x
  | .pop => pop a
  | .clear => (clear a, .ok)
  | .set i x => set a i x
  | .loadAt src so num off => loadAt C (fun _ => src) a so num off
  | .load src so num => load C (fun _ => src) a so num
  | .assign other => copyIn C a other

/-- a program which catches exceptions, with the way each of its operations ended -/
def run (C : Nat) : Arr α → List (Op α) → Arr α × List Res
  | a, [] => (a, [])
  | a, op :: ops => let r := step C a op; let q := run C r.1 ops; (q.1, r.2 :: q.2)

end LGD.SoaArr
