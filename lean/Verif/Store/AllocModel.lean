import Mathlib.Logic.Function.Basic

/-!
# `LibFlatArray::aligned_allocator`

Addresses are natural numbers, pointers have 8 bytes, `std::size_t` has 64 bits. `A` is `ALIGNMENT`, `s` is `sizeof(T)`. `std::allocator<char>` may return any address; its answers are part of the events. Memory
consists of bytes; a byte of a stored pointer is described by the pointer and its position, which suffices as the code reads nothing but pointers.
-/

namespace LGD.Alloc

inductive Err
  | undefined
deriving DecidableEq, Repr

/-- a byte of a stored pointer, or any other byte -/
abbrev Byte := Option (Nat × Nat)

/-- chunks which `std::allocator<char>` handed out, with their sizes, and the content of the memory -/
structure St where
  heap : Nat → Option Nat
  mem : Nat → Byte

/-- `upsize` (aligned_allocator.hpp:135-143) -/
def upsize (A s n : Nat) : Nat := (n * s + (A + 8)) % 2 ^ 64

/-- distance of the array from the start of the chunk (aligned_allocator.hpp:77-81) -/
def correction (A c : Nat) : Nat :=
  let offset := c % A
  let correction := A - offset
  if correction < 8 then correction + A else correction

/-- a pointer is written to memory -/
def store (mem : Nat → Byte) (a p : Nat) : Nat → Byte := fun x => if a ≤ x ∧ x < a + 8 then some (p, x - a) else mem x

/-- a pointer is read from memory; `none`: the bytes don't form a pointer -/
def load (mem : Nat → Byte) (a : Nat) : Option Nat := match mem a with
  | some (p, _) => if (List.range 8).all fun k => decide (mem (a + k) = some (p, k)) then some p else none
  | none => none

/-- `allocate` (aligned_allocator.hpp:63-85), `c` is the address of the chunk: state and address of the array. Division by 0 and writing outside of the chunk are undefined. -/
def allocate (A s : Nat) (st : St) (c n : Nat) : Except Err (St × Nat) :=
  if A = 0 then .error .undefined else
    let ret := c + correction A c
    if c + 8 ≤ ret ∧ ret ≤ c + upsize A s n then .ok (⟨Function.update st.heap c (some (upsize A s n)), store st.mem (ret - 8) c⟩, ret) else .error .undefined

/-- `deallocate` (aligned_allocator.hpp:87-98). Releasing anything but a chunk, with its size, is undefined. -/
def deallocate (A s : Nat) (st : St) (p n : Nat) : Except Err St :=
  if p = 0 then .ok st else
    match load st.mem (p - 8) with
    | none => .error .undefined
    | some actual => if st.heap actual = some (upsize A s n) then .ok { st with heap := Function.update st.heap actual none } else .error .undefined

/-- what a program does: it obtains an array of `n` elements, writes a byte, or releases an array -/
inductive Ev
  | allocate (c n : Nat)
  | write (a : Nat) (b : Byte)
  | deallocate (p n : Nat)

def step (A s : Nat) (st : St) : Ev → Except Err St
  | .allocate c n => (allocate A s st c n).bind fun r => .ok r.1
  | .write a b => .ok { st with mem := Function.update st.mem a b }
  | .deallocate p n => deallocate A s st p n

def run (A s : Nat) : List Ev → St → Except Err St
  | [], st => .ok st
  | e :: es, st => (step A s st e).bind (run A s es)

end LGD.Alloc
