import Verif.Comm.MpiModel
import Verif.Store.GridModel
import Verif.Region.Iter
import Verif.Step.AdapterModel

/-!
# Gathering grids: `ParallelMemoryWriter`, `CollectingWriter`

Programs of the ranks on top of the message passing in `Comm/MpiModel.lean`. All operations of one rank which matter for
communication are kept: the order of sends and receives, what is sent from where at the time it is copied, and what is waited for.

Simplifications: the simulator's grid is what `get` yields for its coordinates (`val`) and its edge cell; that reading and writing streaks
amounts to reading and writing their coordinates is C33 and C47. The target is a `DisplacedGrid` whose box starts at the origin, its memory is the cell
vector and the edge cell of the delegate, hence cells are addressed as in `Grid::operator[]`. Static cells (no SoA, no Boost/HPX serialization).
Conversions of sizes to `int` and `unsigned` are not modelled.
-/

namespace LGD.Gather
open LGD.Mpi LGD.Adapter

/-- memory of a rank: cell `i` of the cell vector of grid `g`, its edge cell, elements of the buffer -/
inductive Loc where
  | cell (g : Nat) (i : Int)
  | edge (g : Nat)
  | buf (i : Nat)
  deriving DecidableEq

/-- what travels: the number of streaks, streaks, cells -/
inductive Msg (α : Type) where
  | num (m : Nat)
  | streaks (l : List Streak)
  | cells (vs : List α)

instance {α : Type} : Wire α (Msg α) where
  enc := .cells
  dec | .cells vs => some vs
      | _ => none
  dec_enc _ := rfl

/-- what a `Writer` gets to see: step, event, all cells in row-major order, edge cell -/
structure Shot (α : Type) where
  step : Nat
  event : Event
  cells : List α
  edge : α

abbrev P (α : Type) := Proc Loc α (Msg α) (Shot α)

/-- one call of `stepFinished`: `validRegion`, what the simulator's grid holds, its edge cell, `lastCall` -/
structure Call (α : Type) where
  step : Nat
  event : Event
  idx : Idx
  val : Crd → α
  edge : α
  last : Bool

variable {α : Type} (n : Nat) (wraps : Nat → Bool) (dim : Crd)

/-- `MPILayer::sendRegion` (mpilayer.h:259-270); the request of the number is filed under 0, the blocking send of the streaks under 1 -/
def sendRegion (idx : Idx) (dst tag : Nat) (k : P α) : P α :=
  match toVector n idx with
  | none => .abort
  | some l =>
    .isend dst tag 0 (.const (.num (numStreaks idx)))
      (if 0 < numStreaks idx then
        .isend dst tag 1 (.const (.streaks (l.take (numStreaks idx)))) (.wait 1 (.wait 0 k))
      else .wait 0 k)

/-- `Region::load` (region.h:690-696) on an empty region -/
def loadStreaks : Idx → List Streak → Option Idx
  | idx, [] => some idx
  | idx, s :: ss => (regInsert n idx s).bind fun idx => loadStreaks idx ss

/-- `MPILayer::recvRegion` (mpilayer.h:275-289); streaks which weren't sent would be empty ones -/
def recvRegion (src tag : Nat) (k : Idx → P α) : P α :=
  .recv src tag fun m =>
    match m with
    | .num m =>
      if 0 < m then
        .recv src tag fun s =>
          match s with
          | .streaks l =>
            if l.length ≤ m then
              match loadStreaks n emptyIdx l with
              | some idx => k idx
              | none => .abort
            else .abort
          | _ => .abort
      else k emptyIdx
    | _ => .abort

/-- address of a cell: `Grid::operator[]` (grid.h:146-149) -/
def cellAddr (g : Nat) (c : Crd) : Loc :=
  match topoLocate n wraps c dim with
  | some i => .cell g i
  | none => .edge g

/-- as many cells as a streak has from the address of its origin on; `none`: they don't belong to the grid -/
def streakAddrs (g : Nat) (s : Streak) : Option (List Loc) :=
  match topoLocate n wraps s.origin dim with
  | some i =>
    if 0 ≤ i ∧ i + (s.endX - s.origin 0) ≤ crdProd n dim then
      some ((List.range (s.endX - s.origin 0).toNat).map fun j : Nat => Loc.cell g (i + (j : Int)))
    else none
  | none => if s.endX - s.origin 0 = 1 then some [.edge g] else none

/-- `MPILayer::sendUnregisteredRegion` (mpilayer.h:315-325): the loop; requests are filed under the tag -/
def sendCells (g dst tag : Nat) : List Streak → P α → P α
  | [], k => k
  | s :: ss, k =>
    match streakAddrs n wraps dim g s with
    | none => .abort
    | some ls => .isend dst tag tag (.cells ls) (sendCells g dst tag ss k)

/-- `MPILayer::recvUnregisteredRegion` (mpilayer.h:303-313): the loop -/
def recvCells (g src tag : Nat) : List Streak → P α → P α
  | [], k => k
  | s :: ss, k =>
    match streakAddrs n wraps dim g s with
    | none => .abort
    | some ls => .irecv src tag tag ls (recvCells g src tag ss k)

/-- for all streaks of a region -/
def forStreaks (idx : Idx) (f : List Streak → P α → P α) (k : P α) : P α :=
  match toVector n idx with
  | none => .abort
  | some l => f l k

/-- `MPILayer::PARALLEL_MEMORY_WRITER` (mpilayer.h:41) -/
def pmwTag : Nat := 200

/-- `MPILayer::COLLECTING_WRITER` (mpilayer.h:42) -/
def cwTag : Nat := 300

/-- `ParallelMemoryWriter::sendRecvGrid` (parallelmemorywriter.h:72-93) -/
def pmwPair (self g : Nat) (idx : Idx) (x y : Nat) (k : P α) : P α :=
  let k' : P α :=
    if y = self then
      recvRegion n x pmwTag fun r => forStreaks n r (recvCells n wraps dim g x pmwTag) k
    else k
  if x = self then
    sendRegion n idx y pmwTag (forStreaks n idx (sendCells n wraps dim g y pmwTag) k')
  else k'

/-- the loops over `sender` and `receiver` (parallelmemorywriter.h:61-67) -/
def pairs (N : Nat) : List (Nat × Nat) :=
  (List.range N).flatMap fun s => ((List.range N).filter fun r => s != r).map fun r => (s, r)

def pmwPairs (self g : Nat) (idx : Idx) : List (Nat × Nat) → P α → P α
  | [], k => k
  | (x, y) :: ps, k => pmwPair n wraps dim self g idx x y (pmwPairs self g idx ps k)

/-- the default cells of a grid which was resized for the first time -/
def blank (dflt : α) (g : Nat) : List (Loc × α) :=
  (Loc.edge g, dflt) :: (List.range (crdProd n dim).toNat).map fun i : Nat => (Loc.cell g (i : Int), dflt)

/-- `set(Streak)` with the cells of the simulator's grid -/
def putStreaks (g : Nat) (val : Crd → α) : List Streak → P α → P α
  | [], k => k
  | s :: ss, k =>
    .write ((coordsOf s).map fun c => (cellAddr n wraps dim g c, val c)) (putStreaks g val ss k)

/-- `ParallelMemoryWriter::stepFinished` (parallelmemorywriter.h:49-69): `fresh` tells that there's no grid for this step yet -/
def pmwCall (dflt : α) (N self : Nat) (fresh : Bool) (c : Call α) (k : P α) : P α :=
  let g := c.step
  let body : P α :=
    forStreaks n c.idx (putStreaks n wraps dim g c.val) <|
    .write [(.edge g, c.edge)] <|
    pmwPairs n wraps dim self g c.idx (pairs N) <|
    .wait pmwTag k
  if fresh then .write (blank n dim dflt g) body else body

/-- a sequence of calls (parallelmemorywriter.h:45-47: calls which aren't due are skipped); `seen` are the keys of `grids` -/
def pmwRun (dflt : α) (N self period : Nat) : List Nat → List (Call α) → P α
  | _, [] => .done
  | seen, c :: cs =>
    if c.event = .regular ∧ c.step % period ≠ 0 then pmwRun dflt N self period seen cs
    else pmwCall n wraps dim dflt N self (!seen.contains c.step) c
      (pmwRun dflt N self period (c.step :: seen) cs)

/-- the first `m` elements of the buffer -/
def bufs (m : Nat) : List Loc := (List.range m).map Loc.buf

/-- the coordinates of streaks in their order -/
def crds (l : List Streak) : List Crd := l.flatMap coordsOf

/-- `loadRegion(buffer, region)`: from the buffer to the grid -/
def loadBuf (g : Nat) (l : List Streak) (k : P α) : P α :=
  .read (bufs (crds l).length) fun vs =>
    .write (((crds l).map (cellAddr n wraps dim g)).zip vs) k

/-- the loop over `sender` (collectingwriter.h:84-110) -/
def cwLoop (root self : Nat) (idx : Idx) : List Nat → P α → P α
  | [], k => k
  | x :: xs, k =>
    if x = root then cwLoop root self idx xs k
    else
      let k' : P α :=
        if self = x then
          sendRegion n idx root 0 <| forStreaks n idx
            (fun l k => .isend root cwTag cwTag (.cells (bufs (crds l).length)) k) (cwLoop root self idx xs k)
        else cwLoop root self idx xs k
      if self = root then
        recvRegion n x 0 fun r => forStreaks n r
          (fun l k => .irecv x cwTag cwTag (bufs (crds l).length) (.wait cwTag (loadBuf n wraps dim 0 l k))) k'
      else k'

/-- the delegate gets to see the global grid (collectingwriter.h:114-116) -/
def cwEnd (root self : Nat) (c : Call α) (k : P α) : P α :=
  if c.last ∧ self = root then
    .read (.edge 0 :: (List.range (crdProd n dim).toNat).map fun i : Nat => Loc.cell 0 (i : Int)) fun vs =>
      match vs with
      | e :: vs => .emit ⟨c.step, c.event, vs, e⟩ k
      | [] => .abort
  else k

/-- `CollectingWriter::stepFinished` (collectingwriter.h:61-117): `fresh` tells that the global grid has no dimensions yet -/
def cwCall (dflt : α) (N root self : Nat) (fresh : Bool) (c : Call α) (k : P α) : P α :=
  forStreaks n c.idx (fun l k =>
    .write ((bufs (crds l).length).zip ((crds l).map c.val)) <|
    let rest : P α :=
      cwLoop n wraps dim root self c.idx (List.range N) <|
      .wait cwTag <| cwEnd n dim root self c k
    if self = root then
      let body : P α := loadBuf n wraps dim 0 l (.write [(.edge 0, c.edge)] rest)
      if fresh then .write (blank n dim dflt 0) body else body
    else rest) k

def cwRun (dflt : α) (N root self : Nat) : Bool → List (Call α) → P α
  | _, [] => .done
  | fresh, c :: cs => cwCall n wraps dim dflt N root self fresh c (cwRun dflt N root self false cs)

end LGD.Gather
