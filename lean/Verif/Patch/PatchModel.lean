import Mathlib.Data.List.Nodup

/-!
# Patch accepters, providers and buffers

Grids are abstract here: a grid is a function from coordinates `κ` to cells `α` and a region is the list of its
coordinates in iteration order (C05 proves that iteration is complete and duplicate-free, C33 relates the grid classes
to functions).
-/

namespace LGD.Patch

variable {κ α : Type} [DecidableEq κ]

/-- `GridBase::saveRegion` (gridbase.h; see C33): copies the cells of the region, in order, to a buffer. -/
def saveRegion (cs : List κ) (g : κ → α) : List α := cs.map g

/-- `GridBase::loadRegion` (gridbase.h; see C33): writes the buffered cells to the coordinates of the region. -/
def loadRegion : List κ → List α → (κ → α) → κ → α
  | c :: cs, v :: vs, g => loadRegion cs vs (Function.update g c v)
  | _, _, g => g

/-- `std::set<std::size_t>::insert` (stdcontaineroverloads.h:154-158 `operator<<`); a set is the ascending list of its
elements, so `min` and `erase_min` (stdcontaineroverloads.h:161-176) are head and tail. -/
def setInsert (s : Nat) : List Nat → List Nat
  | [] => [s]
  | t :: l => if s < t then s :: t :: l else if s = t then t :: l else t :: setInsert s l

/-- `PatchAccepter::checkNanoStepPut` (patchaccepter.h:77-88); `none` is the `std::logic_error`. -/
def checkNanoStepPut (req : List Nat) (s : Nat) : Option Bool :=
  match req with
  | [] => some false
  | m :: _ => if s < m then some false else if s > m then none else some true

/-- `PatchProvider::checkNanoStepGet` (patchprovider.h:76-90); `false` is a `std::logic_error`. -/
def checkNanoStepGet (stored : List Nat) (s : Nat) : Bool :=
  match stored with
  | [] => false
  | m :: _ => if m ≠ s then false else true

/-- `PatchAccepter::nextRequiredNanoStep` (patchaccepter.h:60-67) and `PatchProvider::nextAvailableNanoStep`
(patchprovider.h:64-71); `inf` stands for `infinity()`. -/
def nextNanoStep (inf : Nat) (l : List Nat) : Nat :=
  match l with
  | [] => inf
  | m :: _ => m

/-- what a caller observes -/
inductive Out (κ α : Type) where
  | done                      -- pushRequest
  | ignored                   -- put() returned without storing
  | accepted                  -- put() stored the patch
  | threw                     -- std::logic_error
  | loaded (g : κ → α)        -- get() modified the destination grid

/-- the calls -/
inductive Op (κ α : Type) where
  | request (s : Nat)
  | put (g : κ → α) (s : Nat)
  | get (g : κ → α) (s : Nat) (remove : Bool)

/-- `PatchBuffer` (patchbuffer.h:18-85, members from patchaccepter.h:75 and patchprovider.h:74) -/
structure PB (α : Type) where
  req : List Nat := []
  stored : List Nat := []
  regions : List (List α) := []

/-- `PatchBuffer::put` (patchbuffer.h:37-58) -/
def PB.put (cs : List κ) (b : PB α) (g : κ → α) (s : Nat) : PB α × Out κ α :=
  match checkNanoStepPut b.req s with
  | none => (b, .threw)
  | some false => (b, .ignored)
  | some true =>
    ({ req := b.req.tail, stored := setInsert (b.req.headD 0) b.stored, regions := b.regions ++ [saveRegion cs g] }, .accepted)

/-- `PatchBuffer::get` (patchbuffer.h:60-80) -/
def PB.get (cs : List κ) (b : PB α) (g : κ → α) (s : Nat) (remove : Bool) : PB α × Out κ α :=
  if checkNanoStepGet b.stored s then
    match b.regions with
    | [] => (b, .threw)
    | r :: rs => (if remove then { b with regions := rs, stored := b.stored.tail } else b, .loaded (loadRegion cs r g))
  else (b, .threw)

/-- one call; exceptions leave the buffer as it is -/
def PB.step (cs : List κ) (b : PB α) : Op κ α → PB α × Out κ α
  | .request s => ({ b with req := setInsert s b.req }, .done)
  | .put g s => b.put cs g s
  | .get g s rm => b.get cs g s rm

/-- a sequence of calls -/
def PB.run (cs : List κ) : PB α → List (Op κ α) → List (Op κ α × Out κ α)
  | _, [] => []
  | b, op :: ops => (op, (b.step cs op).2) :: PB.run cs (b.step cs op).1 ops

/-- `PatchBufferFixed` (patchbufferfixed.h:16-92); the vector `buffer` is a function on indices -/
structure PBF (α : Type) where
  req : List Nat := []
  stored : List Nat := []
  buffer : Nat → List α
  indexRead : Nat := 0
  indexWrite : Nat := 0

/-- `PatchBufferFixed::put` (patchbufferfixed.h:40-61) -/
def PBF.put (size : Nat) (cs : List κ) (b : PBF α) (g : κ → α) (s : Nat) : PBF α × Out κ α :=
  match checkNanoStepPut b.req s with
  | none => (b, .threw)
  | some false => (b, .ignored)
  | some true =>
    if b.stored.length ≥ size then (b, .threw)
    else
      ({ req := b.req.tail, stored := setInsert (b.req.headD 0) b.stored, indexRead := b.indexRead
         buffer := Function.update b.buffer b.indexWrite (saveRegion cs g), indexWrite := (b.indexWrite + 1) % size }, .accepted)

/-- `PatchBufferFixed::get` (patchbufferfixed.h:63-79) -/
def PBF.get (size : Nat) (cs : List κ) (b : PBF α) (g : κ → α) (s : Nat) (remove : Bool) : PBF α × Out κ α :=
  if checkNanoStepGet b.stored s then
    (if remove then { b with stored := b.stored.tail, indexRead := (b.indexRead + 1) % size } else b,
      .loaded (loadRegion cs (b.buffer b.indexRead) g))
  else (b, .threw)

/-- one call -/
def PBF.step (size : Nat) (cs : List κ) (b : PBF α) : Op κ α → PBF α × Out κ α
  | .request s => ({ b with req := setInsert s b.req }, .done)
  | .put g s => b.put size cs g s
  | .get g s rm => b.get size cs g s rm

/-- a sequence of calls -/
def PBF.run (size : Nat) (cs : List κ) : PBF α → List (Op κ α) → List (Op κ α × Out κ α)
  | _, [] => []
  | b, op :: ops => (op, (b.step size cs op).2) :: PBF.run size cs (b.step size cs op).1 ops

end LGD.Patch
