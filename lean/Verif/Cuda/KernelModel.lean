import Mathlib.Logic.Function.Basic
import Mathlib.Data.List.Perm.Basic
import Mathlib.Data.Int.Order.Basic

/-!
# Kernels of CUDASimulator and CUDAStepper

parallelization/cudasimulator.h, storage/cudaupdatefunctor.h, parallelization/nesting/cudastepper.h, geometry/cudaregion.h. Device memory is a function of addresses; accesses beyond the allocated block are undefined
behaviour (`none`). Integers don't overflow. A cell's update is a function of what it reads from its neighborhood.
-/

namespace LGD.Cuda

/-- coordinates; unused axes are 0 -/
@[ext] structure P where
  x : Int
  y : Int
  z : Int
  deriving DecidableEq

/-- `DIM`, `WrapsAxis<0..2>::VALUE`, the dimensions of the grid (1 for axes which don't exist, as in `dim3`), the size of the blocks -/
structure Cfg where
  D : Nat
  wx : Bool
  wy : Bool
  wz : Bool
  dx : Nat
  dy : Nat
  dz : Nat
  bx : Nat
  bY : Nat
  bz : Nat

namespace Cfg
variable (c : Cfg)

/-- padding on axes which aren't periodic (cudasimulator.h:328-335); `gridOffset` is its negative (lines 409-416) -/
def px : Nat := if c.wx then 0 else 1
def py : Nat := if c.D < 2 ∨ c.wy then 0 else 1
def pz : Nat := if c.D < 3 ∨ c.wz then 0 else 1

/-- `offsetY`, `offsetZ` (lines 417-419) -/
def offY : Int := c.dx + 2 * c.px
def offZ : Int := (c.dx + 2 * c.px) * (c.dy + 2 * c.py)

/-- number of cells in each of the grids (lines 338-340) -/
def size : Int := (c.dx + 2 * c.px) * (c.dy + 2 * c.py) * (c.dz + 2 * c.pz)

/-- `axisWrapOffset` (lines 421-423) -/
def awx : Int := c.dx
def awy : Int := c.dy * c.offY
def awz : Int := c.dz * c.offZ

/-- `ceil(1.0 * a / b)` -/
def ceilDiv (a b : Nat) : Nat := (a + b - 1) / b

/-- `wavefrontLength` (lines 395, 425-428) -/
def wl : Nat :=
  let w := if c.D = 1 then 1 else if c.D = 2 then ceilDiv c.dy c.bY else ceilDiv c.dz c.bz
  if w = 0 then 1 else w

/-- `cudaDimGrid` (lines 392-403, 407) -/
def nx : Nat := ceilDiv c.dx c.bx
def ny : Nat := if c.D = 3 then ceilDiv c.dy c.bY else 1

end Cfg

/-- one call of `update`: index and corrections for neighbors beyond the edges (lines 116-126) -/
@[ext] structure Ev where
  idx : Int
  w : Int
  e : Int
  t : Int
  b : Int
  s : Int
  n : Int

/-- `HoodType::operator[]` (lines 52-64) -/
def hood (c : Cfg) (ev : Ev) (o : P) : Int :=
  ev.idx + (if o.x < 0 then ev.w + o.x else 0) + (if 0 < o.x then ev.e + o.x else 0) +
    (if o.y < 0 then ev.t + o.y * c.offY else 0) + (if 0 < o.y then ev.b + o.y * c.offY else 0) +
    (if o.z < 0 then ev.s + o.z * c.offZ else 0) + (if 0 < o.z then ev.n + o.z * c.offZ else 0)

/-- the loop over `myY` or `myZ` (lines 141-143, 151-153); each update advances the index (cudaupdatefunctor.h:19-25) -/
def sweep (lo hi off idx : Int) : List (Int × Int × Int) := (List.range (hi - lo).toNat).map fun i : Nat => (idx + i * off, 0, 0)

/-- what a thread does along the last axis (lines 128-154, 209-235): index, correction below, correction above -/
def column (wrap : Bool) (lo hi dim off aw idx : Int) : List (Int × Int × Int) :=
  let first := wrap && decide (lo = 0)
  let pre := if first then [(idx, aw, 0)] else []
  let lo' := if first then lo + 1 else lo
  let idx' := if first then idx + off else idx
  if wrap && decide (hi = dim) then pre ++ sweep lo' (hi - 1) off idx' ++ [(idx' + ((hi - 1 - lo').toNat : Int) * off, 0, -aw)]
  else pre ++ sweep lo' hi off idx'

/-- `kernel2D` (lines 84-155) for `logicalX`, `logicalY` -/
def kernel2D (c : Cfg) (lx ly : Nat) : List Ev :=
  let lo : Int := ly * c.wl + c.py
  let hi : Int := min ((ly + 1) * c.wl + c.py) (c.dy + c.py)
  let w := if c.wx && decide (lx = 0) then c.awx else 0
  let e := if c.wx && decide ((lx : Int) = c.dx - 1) then -c.awx else 0
  if c.dx ≤ lx then [] else (column c.wy lo hi c.dy c.offY c.awy (lo * c.offY + (lx + c.px))).map fun u => ⟨u.1, w, e, u.2.1, u.2.2, 0, 0⟩

/-- `kernel3D` (lines 162-236) for `logicalX`, `logicalY`, `logicalZ` -/
def kernel3D (c : Cfg) (lx ly lz : Nat) : List Ev :=
  let lo : Int := lz * c.wl + c.pz
  let hi : Int := min ((lz + 1) * c.wl + c.pz) (c.dz + c.pz)
  let w := if c.wx && decide (lx = 0) then c.awx else 0
  let e := if c.wx && decide ((lx : Int) = c.dx - 1) then -c.awx else 0
  let t := if c.wy && decide (ly = 0) then c.awy else 0
  let b := if c.wy && decide ((ly : Int) = c.dy - 1) then -c.awy else 0
  if c.dx ≤ lx ∨ c.dy ≤ ly then [] else (column c.wz lo hi c.dz c.offZ c.awz (lo * c.offZ + (ly + c.py) * c.offY + (lx + c.px))).map fun u => ⟨u.1, w, e, t, b, u.2.1, u.2.2⟩

/-- indices `blockIdx * blockDim + threadIdx` -/
def ids (blocks size : Nat) : List Nat := (List.range blocks).flatMap fun q => (List.range size).map fun r => q * size + r

/-- all updates of one launch (lines 250-290, 566-590), thread by thread; the last axis has one block -/
def launch (c : Cfg) : List Ev :=
  if c.D = 3 then (ids 1 c.bz).flatMap fun lz => (ids c.ny c.bY).flatMap fun ly => (ids c.nx c.bx).flatMap fun lx => kernel3D c lx ly lz
  else (List.range c.bz).flatMap fun _ => (ids 1 c.bY).flatMap fun ly => (ids c.nx c.bx).flatMap fun lx => kernel2D c lx ly

/-- the address is part of the allocated memory -/
def Cfg.Valid (c : Cfg) (i : Int) : Prop := 0 ≤ i ∧ i < c.size

instance (c : Cfg) (i : Int) : Decidable (c.Valid i) := by unfold Cfg.Valid; infer_instance

variable {α : Type}

/-- `gridNew[index].update(hood, nanoStep)`; the cell reads the neighbors `S` -/
def exec (c : Cfg) (S : List P) (f : List α → α) (old new : Int → α) (ev : Ev) : Option (Int → α) :=
  if c.Valid ev.idx ∧ ∀ o ∈ S, c.Valid (hood c ev o) then some (Function.update new ev.idx (f (S.map fun o => old (hood c ev o)))) else none

/-- updates in the given order -/
def execAll (c : Cfg) (S : List P) (f : List α → α) (old : Int → α) (evs : List Ev) (new : Int → α) : Option (Int → α) := evs.foldlM (exec c S f old) new

/-! ## CUDARegion and CUDAStepper -/

/-- `CUDARegion`: constructor and `addCoord` (cudaregion.h:22-34, 61-66): coordinates, axis by axis -/
def regionBuffer (r : List P) : List Int := r.map P.x ++ r.map P.y ++ r.map P.z

/-- `LoadAbsoluteCoord<3>` (cudastepper.h:46-53) -/
def loadCoord (buf : List Int) (size i : Nat) : P := ⟨buf.getD i 0, buf.getD (i + size) 0, buf.getD (i + 2 * size) 0⟩

/-- number of blocks `CUDAStepper` launches (line 350) -/
def stepperBlocks : Nat := 200

/-- `updateKernel` (lines 227-245) for the coordinates of a region; `cell` computes the new value at a coordinate from the old grid. All threads of a block do the same. -/
def stepperKernel (r : List P) (cell : P → α) (new : P → α) : P → α :=
  (List.range stepperBlocks).foldl (fun g i => if r.length ≤ i then g else Function.update g (loadCoord (regionBuffer r) r.length i) (cell (loadCoord (regionBuffer r) r.length i))) new

end LGD.Cuda
