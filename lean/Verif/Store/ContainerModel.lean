import Mathlib.Order.Defs.LinearOrder
import Verif.Geom.BoxModel

/-!
# `ContainerCell`

`none` stands for undefined behaviour (access outside of one of the arrays). Operations which may throw return whether they did, along with the container
afterwards. The key type is any type with a linear order (`KEY = int` by default). Capacities are assumed to fit an `int` (`int offset = pos - ids`).
-/

namespace LGD.CCell

/-- members of `ContainerCell<CARGO, SIZE, KEY>` (containercell.h:208-210); `SIZE` is the length of both arrays -/
structure CC (K α : Type) where
  ids : List K
  cells : List α
  num : Nat

variable {K α : Type} [LinearOrder K]

/-- result of an operation: exception thrown, container -/
abbrev Res (K α : Type) := Option (Bool × CC K α)

/-- `ContainerCell()` (containercell.h:58-60): the arrays hold arbitrary values -/
def make (ids : List K) (cells : List α) : CC K α := ⟨ids, cells, 0⟩

/-- `std::upper_bound(ids, ids + numElements, id) - ids` (containercell.h:64-65, 109-110): by its contract the furthermost position such that no element before it is greater than `id` -/
def upperBound (c : CC K α) (id : K) : Nat := ((c.ids.take c.num).takeWhile (fun x => !decide (id < x))).length

/-- the loop in `insert` (containercell.h:81-84): `m` iterations remain, starting with index `i` -/
def shiftUp : Nat → Nat → List K → List α → Option (List K × List α)
  | 0, _, ids, cells => some (ids, cells)
  | m + 1, i, ids, cells =>
    match cells[i - 1]?, ids[i - 1]? with
    | some v, some k => if i < cells.length ∧ i < ids.length then shiftUp m (i - 1) (ids.set i k) (cells.set i v) else none
    | _, _ => none

/-- a write to both arrays at the same index -/
def put (c : CC K α) (i : Nat) (id : K) (v : α) (num : Nat) : Res K α :=
  if i < c.cells.length ∧ i < c.ids.length then some (false, ⟨c.ids.set i id, c.cells.set i v, num⟩) else none

/-- `insert` after the test for an existing element (containercell.h:73-88, `checkSize` containercell.h:212-217) -/
def insertNew (c : CC K α) (id : K) (v : α) (offset : Nat) : Res K α :=
  if c.num = c.ids.length then some (true, c)
  else if offset = c.num then put c c.num id v (c.num + 1)
  else match shiftUp (c.num - offset) c.num c.ids c.cells with
    | none => none
    | some (ids, cells) => put ⟨ids, cells, c.num⟩ offset id v (c.num + 1)

/-- `insert` (containercell.h:62-89) -/
def insert (c : CC K α) (id : K) (v : α) : Res K α :=
  let offset := upperBound c id
  if 0 < offset then
    match c.ids[offset - 1]? with
    | none => none
    | some k =>
      if k = id then (if offset - 1 < c.cells.length then some (false, { c with cells := c.cells.set (offset - 1) v }) else none)
      else insertNew c id v offset
  else insertNew c id v offset

/-- `operator[]` (containercell.h:107-122): `some none` is a null pointer, `some (some i)` points to `cells[i]` -/
def find (c : CC K α) (id : K) : Option (Option Nat) :=
  let offset := upperBound c id
  if offset = 0 then some none
  else match c.ids[offset - 1]? with
    | none => none
    | some k => if k = id then some (some (offset - 1)) else some none

/-- reading through the pointer returned by `operator[]`, if it isn't null -/
def lookup (c : CC K α) (id : K) : Option (Option α) :=
  match find c id with
  | none => none
  | some none => some none
  | some (some i) => (c.cells[i]?).map some

/-- writing through the pointer returned by `operator[]`, if it isn't null -/
def assign (c : CC K α) (id : K) (v : α) : Res K α :=
  match find c id with
  | none => none
  | some none => some (false, c)
  | some (some i) => if i < c.cells.length then some (false, { c with cells := c.cells.set i v }) else none

/-- the loop in `remove` (containercell.h:96-99): `m` iterations remain, starting with index `i` -/
def shiftDown : Nat → Nat → List K → List α → Option (List K × List α)
  | 0, _, ids, cells => some (ids, cells)
  | m + 1, i, ids, cells =>
    match cells[i + 1]?, ids[i + 1]? with
    | some v, some k => if i < cells.length ∧ i < ids.length then shiftDown m (i + 1) (ids.set i k) (cells.set i v) else none
    | _, _ => none

/-- `remove` (containercell.h:91-104): the result is the value returned. `numElements - 1` is positive or zero, as an element was found. -/
def remove (c : CC K α) (id : K) : Res K α :=
  match find c id with
  | none => none
  | some none => some (false, c)
  | some (some i) => (shiftDown (c.num - 1 - i) i c.ids c.cells).map fun s => (true, ⟨s.1, s.2, c.num - 1⟩)

/-- `clear` (containercell.h:129-132) -/
def clear (c : CC K α) : CC K α := { c with num := 0 }

/-- iteration from `begin()` to `end()` (containercell.h:134-152) -/
def iterate (c : CC K α) : List (Option α) := (List.range c.num).map fun i => c.cells[i]?

/-- the first `size()` elements of `getIDs()` (containercell.h:154-157, 201-204) -/
def idList (c : CC K α) : List (Option K) := (List.range c.num).map fun i => c.ids[i]?

/-- the loop in `NeighborhoodAdapter::operator[]` (neighborhoodadapter.h:54-61) -/
def searchLoop (n : Nat) (hood : Crd → CC K α) (id : K) : List Crd → Option (Option α)
  | [] => some none
  | d :: rest =>
    if crdEq n d (fun _ => 0) then searchLoop n hood id rest
    else match lookup (hood d) id with
      | none => none
      | some (some v) => some (some v)
      | some none => searchLoop n hood id rest

/-- `NeighborhoodAdapter::operator[]` (neighborhoodadapter.h:45-65): `some none` is the exception. The collection interface (selection of a member of the cell) is the
identity here, as for `ContainerCell::update`. `hood d` is the container at relative coordinate `d`. -/
def adapterGet (n : Nat) (hood : Crd → CC K α) (id : K) : Option (Option α) :=
  match lookup (hood (fun _ => 0)) id with
  | none => none
  | some (some v) => some (some v)
  | some none => (boxCoords n ⟨fun _ => -1, fun _ => 3⟩ (3 ^ (n + 1) + 1)).bind (searchLoop n hood id)

/-- the loop in `updateCargo` (containercell.h:190-192): `m` iterations remain, starting with index `i`. The cargo's `update` function sees the neighborhood only through the adapter;
it is a function of the (successful or failing) lookups and its own value, `none` is an exception. An exception leaves the loop. -/
def cargoLoop (f : α → Option α) : Nat → Nat → CC K α → Res K α
  | 0, _, c => some (false, c)
  | m + 1, i, c =>
    match c.cells[i]? with
    | none => none
    | some v => match f v with
      | none => some (true, c)
      | some v' => cargoLoop f m (i + 1) { c with cells := c.cells.set i v' }

/-- `update` (containercell.h:165-180, 187-193): the old container is copied, then each cargo is updated. `f look v` is the cargo's update function, given the lookups via the adapter. -/
def update (n : Nat) (f : (K → Option (Option α)) → α → Option α) (hood : Crd → CC K α) : Res K α :=
  cargoLoop (f (adapterGet n hood)) (hood (fun _ => 0)).num 0 (hood (fun _ => 0))

end LGD.CCell
