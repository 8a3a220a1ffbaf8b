import Verif.Store.GridModel

/-!
# `CUDAGrid`

`storage/cudagrid.h` and `cuda_array.hpp` of LibFlatArray. Device memory consists of two blocks, the one of the cells (as long as the capacity of the array) and the one of the edge cell;
a transfer which leaves its block is undefined behaviour. The topology is given by `wraps`, `tc` is `TOPOLOGICALLY_CORRECT`, `n = DIM - 1`.
-/

namespace LGD.Store

/-- failures: undefined behaviour, or `std::logic_error` -/
inductive CErr where
  | ub | logic
deriving DecidableEq

/-- members of `CUDAGrid` (cudagrid.h:266-269, gridbase.h:293); `mem` and `size` make up the `cuda_array` of the cells -/
structure CGrid (α : Type) where
  origin : Crd
  dim : Crd
  topo : Crd
  mem : List α
  size : Nat
  edgeMem : List α
  hostEdge : α

variable {α : Type} (n : Nat) (wraps : Nat → Bool) (tc : Bool)

/-- constructor (cudagrid.h:36-46), `cuda_array(size, value)` (cuda_array.hpp:62-71) -/
def cMake (origin dim : Crd) (default edge : α) (topo : Crd) : CGrid α :=
  ⟨origin, dim, topo, List.replicate (crdProd n dim).toNat default, (crdProd n dim).toNat, [edge], edge⟩

/-- `toRelativeCoord` (cudagrid.h:276-284) -/
def cRel (g : CGrid α) (c : Crd) : Crd :=
  if tc then topoNormalize n wraps (fun k => c k - g.origin k) g.topo else fun k => c k - g.origin k

/-- a device pointer -/
inductive Ptr where
  | data (i : Int)
  | edge

/-- `address` (cudagrid.h:286-306) -/
def cAddress (g : CGrid α) (c : Crd) : Ptr :=
  if outOfBounds n wraps (cRel n wraps tc g c) g.dim then .edge else .data (toIndex n (cRel n wraps tc g c) g.dim)

/-- `cudaMemcpy` of `m` cells from the device -/
def devRead (g : CGrid α) (p : Ptr) (m : Nat) : Except CErr (List α) :=
  match p with
  | .data i => if 0 ≤ i ∧ i + m ≤ g.mem.length then .ok ((g.mem.drop i.toNat).take m) else .error .ub
  | .edge => if m ≤ g.edgeMem.length then .ok (g.edgeMem.take m) else .error .ub

/-- `cudaMemcpy` of `m` cells to the device; `src` is the memory behind the source pointer -/
def devWrite (g : CGrid α) (p : Ptr) (src : List α) (m : Nat) : Except CErr (CGrid α) :=
  if m ≤ src.length then
    match p with
    | .data i =>
      if 0 ≤ i ∧ i + m ≤ g.mem.length then .ok { g with mem := g.mem.take i.toNat ++ src.take m ++ g.mem.drop (i.toNat + m) } else .error .ub
    | .edge => if m ≤ g.edgeMem.length then .ok { g with edgeMem := src.take m ++ g.edgeMem.drop m } else .error .ub
  else .error .ub

/-- `setEdge` (cudagrid.h:123-127) -/
def cSetEdge (g : CGrid α) (v : α) : CGrid α := { g with hostEdge := v, edgeMem := [v] }

/-- `getEdge` (cudagrid.h:129-132) -/
def cGetEdge (g : CGrid α) : α := g.hostEdge

/-- `set(Coord)` (cudagrid.h:88-98) -/
def cSet (g : CGrid α) (c : Crd) (v : α) : Except CErr (CGrid α) :=
  match cAddress n wraps tc g c with
  | .edge => devWrite (cSetEdge g v) .edge [v] 1
  | .data i => devWrite g (.data i) [v] 1

/-- `get(Coord)` (cudagrid.h:107-114) -/
def cGet (g : CGrid α) (c : Crd) : Except CErr α :=
  (devRead g (cAddress n wraps tc g c) 1).bind fun l => match l with
    | v :: _ => .ok v
    | [] => .error .ub

/-- `Streak::length` (streak.h:77-80) -/
def sLen (s : Streak) : Nat := (s.endX - s.origin 0).toNat

/-- `set(Streak)` (cudagrid.h:100-105) -/
def cSetStreak (g : CGrid α) (s : Streak) (src : List α) : Except CErr (CGrid α) := devWrite g (cAddress n wraps tc g s.origin) src (sLen s)

/-- `get(Streak)` (cudagrid.h:116-121) -/
def cGetStreak (g : CGrid α) (s : Streak) : Except CErr (List α) := devRead g (cAddress n wraps tc g s.origin) (sLen s)

/-- `i->origin + offset` -/
def plus (c off : Crd) : Crd := fun k => c k + off k

/-- the loop of `saveRegion` (cudagrid.h:148-157); `p` is the position of `cursor` in the buffer -/
def cSaveLoop (g : CGrid α) (off : Crd) : List Streak → List α → Nat → Except CErr (List α)
  | [], b, _ => .ok b
  | s :: ss, b, p => (devRead g (cAddress n wraps tc g (plus s.origin off)) (sLen s)).bind fun cs =>
    if p + cs.length ≤ b.length then cSaveLoop g off ss (b.take p ++ cs ++ b.drop (p + cs.length)) (p + sLen s) else .error .ub

/-- `saveRegion(vector)` (cudagrid.h:139-158); `size` is `region.size()` -/
def cSave (g : CGrid α) (b : List α) (idx : Idx) (size : Nat) (off : Crd) : Except CErr (List α) :=
  if b.length < size then .error .logic
  else match toVector n idx with
    | none => .error .ub
    | some ss => cSaveLoop n wraps tc g off ss b 0

/-- the loop of `loadRegion` (cudagrid.h:169-178) -/
def cLoadLoop (off : Crd) : List Streak → List α → CGrid α → Except CErr (CGrid α)
  | [], _, g => .ok g
  | s :: ss, b, g => (devWrite g (cAddress n wraps tc g (plus s.origin off)) b (sLen s)).bind fun g => cLoadLoop off ss (b.drop (sLen s)) g

/-- `loadRegion(vector)` (cudagrid.h:160-179) -/
def cLoad (g : CGrid α) (b : List α) (idx : Idx) (size : Nat) (off : Crd) : Except CErr (CGrid α) :=
  if b.length < size then .error .logic
  else match toVector n idx with
    | none => .error .ub
    | some ss => cLoadLoop n wraps tc off ss b g

/-- `resize` (cudagrid.h:81-86) and `cuda_array::resize` (cuda_array.hpp:125-128, 181-215): `junk` is what the newly allocated memory contains -/
def cResize (g : CGrid α) (origin dim : Crd) (junk : List α) : CGrid α :=
  let newSize := (crdProd n dim).toNat
  if newSize ≤ g.mem.length then { g with origin := origin, dim := dim, size := newSize }
  else { g with origin := origin, dim := dim, size := newSize, mem := g.mem.take g.size ++ junk.take (newSize - g.size) }

end LGD.Store
