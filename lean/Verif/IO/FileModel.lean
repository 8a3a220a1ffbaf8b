import Verif.Store.GridModel
import Verif.Step.AdapterModel

/-!
# Checkpoints and bricks of values: `MPIIO`, `MPIIOWriter`, `ParallelMPIIOWriter`, `MPIIOInitializer`, `BOVWriter`, `BOVOutput`, `SerialBOVWriter`

MPI-IO: files are opened without truncation and with the default view, hence the file pointer counts bytes, and reading or writing `m` items of a datatype
transfers `m` times the *size* of the datatype (MPI standard, sections 13.3 and 13.4.3), whereas `MPIIO::getLength` yields its *extent*.
A byte which was never written is `none`; reading it yields `none` as well (undefined data). A negative position is an error (`none`).
Not modelled: failures of the file system, representation of integers (`enc`/`dec` are arbitrary), conversion of offsets to `MPI_Offset`.
-/

namespace LGD.IO
open LGD.Store LGD.Adapter

/-- an MPI datatype along with its values: `size` is the number of bytes transferred, `extent` the distance of two elements of an array in memory (larger, if
there is padding), `enc`/`dec` the stored representation -/
structure DType (B α : Type) where
  size : Nat
  extent : Nat
  enc : α → List B
  dec : List B → α

/-- content of a file by position -/
abbrev File (B : Type) := Nat → Option B

/-- content of all files by name -/
abbrev Files (B : Type) := String → File B

/-- one call of `MPI_File_write`, at the current file pointer -/
structure WOp (B : Type) where
  name : String
  off : Nat
  bytes : List B

/-- effect of one call of `MPI_File_write` -/
def applyOp {B : Type} (fs : Files B) (op : WOp B) : Files B := fun s i =>
  if s = op.name ∧ op.off ≤ i ∧ i < op.off + op.bytes.length then op.bytes[i - op.off]? else fs s i

/-- effect of a sequence of calls of `MPI_File_write` -/
def applyOps {B : Type} (fs : Files B) (ops : List (WOp B)) : Files B := ops.foldl applyOp fs

/-- the datatypes used by `MPIIO` -/
structure Fmt (B α : Type) where
  coordT : DType B (List Int)
  uintT : DType B Nat
  cellT : DType B α

variable {B α : Type} (n : Nat) (wraps : Nat → Bool)

/-- `getLengths` (mpiio.h:195-205) -/
def Fmt.headerLength (F : Fmt B α) : Nat := F.coordT.extent + 2 * F.uintT.extent + F.cellT.extent

/-- `offset` (mpiio.h:185-192) of a streak: only its origin is normalized (mpiio.h:52, 119) -/
def Fmt.offset (F : Fmt B α) (o dims : Crd) : Int := F.headerLength + toIndex n (topoNormalize n wraps o dims) dims * F.cellT.extent

/-- what a writer sees of a grid: `get(Streak)` and `getEdge()` -/
structure Source (α : Type) where
  get : Streak → Option (List α)
  edge : α

/-- a `Grid` (grid.h:225-249) -/
def gridSource (g : Grid α) : Source α := ⟨gridGetStreak n wraps g, g.edge⟩

/-- a `DisplacedGrid` (displacedgrid.h:233-248) -/
def dispSource (d : DGrid α) : Source α := ⟨dGetStreak n wraps d, d.delegate.edge⟩

/-- the header (mpiio.h:98-110): four consecutive writes, starting at the beginning of the file -/
def headerOps (F : Fmt B α) (name : String) (dims : Crd) (step maxSteps : Nat) (edge : α) : List (WOp B) :=
  [⟨name, 0, F.coordT.enc ((List.range (n + 1)).map dims)⟩,
    ⟨name, F.coordT.size, F.uintT.enc step⟩,
    ⟨name, F.coordT.size + F.uintT.size, F.uintT.enc maxSteps⟩,
    ⟨name, F.coordT.size + 2 * F.uintT.size, F.cellT.enc edge⟩]

/-- one iteration of the loop over the streaks (mpiio.h:113-130) -/
def streakOp (F : Fmt B α) (name : String) (dims : Crd) (src : Source α) (s : Streak) : Option (WOp B) :=
  if 0 ≤ F.offset n wraps s.origin dims then
    (src.get s).map fun vec => ⟨name, (F.offset n wraps s.origin dims).toNat, vec.flatMap F.cellT.enc⟩
  else none

/-- `writeRegion` (mpiio.h:80-134) -/
def writeRegion (F : Fmt B α) (rank : Nat) (src : Source α) (dims : Crd) (step maxSteps : Nat) (name : String) (region : Idx) : Option (List (WOp B)) :=
  (toVector n region).bind fun ss => (ss.mapM (streakOp n wraps F name dims src)).map fun l =>
    (if rank = 0 then headerOps n F name dims step maxSteps src.edge else []) ++ l

/-- `std::setfill('0') << std::setw(w)` -/
def padded (w : Nat) (s : String) : String := String.ofList (List.replicate (w - s.length) '0') ++ s

/-- `filename` (parallelmpiiowriter.h:73-78, mpiiowriter.h:71-76) -/
def mpiioName (pre : String) (step : Nat) : String := pre ++ padded 5 (toString step) ++ ".mpiio"

/-- `ParallelMPIIOWriter::stepFinished` (parallelmpiiowriter.h:44-67) -/
def mpiioStepFinished (F : Fmt B α) (pre : String) (period maxSteps : Nat) (rank : Nat) (src : Source α) (region : Idx) (dims : Crd) (step : Nat) (event : Event) :
    Option (List (WOp B)) :=
  if event = .regular ∧ step % period ≠ 0 then some []
  else writeRegion n wraps F rank src dims step maxSteps (mpiioName pre step) region

/-- `MPIIOWriter::stepFinished` (mpiiowriter.h:45-63); the bounding box of a `Grid` starts at 0 (grid.h:273-276). One process. -/
def mpiioSerialStepFinished (F : Fmt B α) (pre : String) (period maxSteps : Nat) (g : Grid α) (step : Nat) (event : Event) (fuel : Nat) : Option (List (WOp B)) :=
  if event = .regular ∧ step % period ≠ 0 then some []
  else (regInsertBox n emptyIdx ⟨fun _ => 0, g.dim⟩ fuel).bind fun region =>
    writeRegion n wraps F 0 (gridSource n wraps g) g.dim step maxSteps (mpiioName pre step) region

/-! ## reading -/

/-- transfer of bytes -/
def readBytes (f : File B) (off len : Nat) : Option (List B) := (List.range len).mapM fun i => f (off + i)

/-- `MPI_File_read` of `m` items at the current file pointer -/
def readItems {β : Type} (f : File B) (T : DType B β) (off m : Nat) : Option (List β) :=
  (List.range m).mapM fun i => (readBytes f (off + i * T.size) T.size).map T.dec

/-- `MPI_File_read` of one item -/
def readItem {β : Type} (f : File B) (T : DType B β) (off : Nat) : Option β := (readBytes f off T.size).map T.dec

/-- a `Coord` from its components -/
def crdOf (l : List Int) : Crd := fun k => l.getD k 0

/-- `getDimensions` (mpiio.h:207-213) -/
def readDims (F : Fmt B α) (f : File B) : Option Crd := (readItem f F.coordT 0).map crdOf

/-- `readMetadata` (mpiio.h:65-78): dimensions, step, maximum steps -/
def readMetadata (F : Fmt B α) (f : File B) : Option (Crd × Nat × Nat) :=
  (readDims F f).bind fun dims => (readItem f F.uintT F.coordT.size).bind fun step =>
    (readItem f F.uintT (F.coordT.size + F.uintT.size)).map fun maxSteps => (dims, step, maxSteps)

/-- one iteration of the loop over the streaks (mpiio.h:45-61): what is handed to `set(Streak)` -/
def readStreak (F : Fmt B α) (f : File B) (dims : Crd) (s : Streak) : Option (List α) :=
  if 0 ≤ F.offset n wraps s.origin dims then readItems f F.cellT (F.offset n wraps s.origin dims).toNat (s.endX - s.origin 0).toNat else none

/-- `readRegion` (mpiio.h:24-62), for a grid of type `G` with `setEdge` and `set(Streak)` -/
def readRegion {G : Type} (F : Fmt B α) (setEdge : G → α → G) (set : G → Streak → List α → Option G) (f : File B) (region : Idx) (g : G) : Option G :=
  (readDims F f).bind fun dims => (readItem f F.cellT (F.headerLength - F.cellT.extent)).bind fun edge =>
    (toVector n region).bind fun ss => ss.foldlM (fun g s => (readStreak n wraps F f dims s).bind fun vec => set g s vec) (setEdge g edge)

/-- `setEdge` of a `DisplacedGrid` (displacedgrid.h:240-243) -/
def dSetEdge (d : DGrid α) (v : α) : DGrid α := { d with delegate := gridSetEdge d.delegate v }

/-- `boundingBox` of a `DisplacedGrid` (displacedgrid.h:255-258) -/
def dBox (d : DGrid α) : Box := ⟨d.origin, d.delegate.dim⟩

/-- `MPIIOInitializer::grid` (mpiioinitializer.h:41-46) for a `DisplacedGrid` -/
def initGrid (F : Fmt B α) (f : File B) (fuel : Nat) (d : DGrid α) : Option (DGrid α) :=
  (regInsertBox n emptyIdx (dBox d) fuel).bind fun region => readRegion n wraps F dSetEdge (dSetStreak n wraps) f region d

/-- `MPIIOInitializer::grid` (mpiioinitializer.h:41-46) for a `Grid` -/
def initSerialGrid (F : Fmt B α) (f : File B) (fuel : Nat) (g : Grid α) : Option (Grid α) :=
  (regInsertBox n emptyIdx ⟨fun _ => 0, g.dim⟩ fuel).bind fun region => readRegion n wraps F gridSetEdge (gridSetStreak n wraps) f region g

/-! ## bricks of values -/

/-- a selector: `datatype` is the MPI datatype of one component (primitive, hence without padding), `arity` the number of components of the member,
`member` their stored representation (`copyMemberOut`; selector.h:198-240, arrayfilter.h:13-45, defaultarrayfilter.h:72-90) -/
structure Sel (B α : Type) where
  size : Nat
  arity : Nat
  member : α → List B

/-- members of `BOVWriter` (bovwriter.h:79-83) as far as they matter: `comm = none` is an indeterminate value -/
structure BOV (B α : Type) where
  pre : String
  period : Nat
  sel : Sel B α
  comm : Option Unit

/-- constructor with a member pointer (bovwriter.h:34-45): the communicator is not stored -/
def bovMember (sel : Sel B α) (pre : String) (period : Nat) : BOV B α := ⟨pre, period, sel, none⟩

/-- constructor with a selector (bovwriter.h:47-58) -/
def bovSelector (sel : Sel B α) (pre : String) (period : Nat) : BOV B α := ⟨pre, period, sel, some ()⟩

/-- `filename` (bovwriter.h:85-90, serialbovwriter.h:76-85) -/
def bovName (pre : String) (step : Nat) (suffix : String) : String := pre ++ "." ++ padded 5 (toString step) ++ "." ++ suffix

/-- `saveMemberImplementationGeneric` (grid.h:437-454) for a single streak: the address of its first cell is taken as that of an array. The cells, of which
`copyMemberOut` extracts the member. -/
def gridMemberStreak (g : Grid α) (s : Streak) : Option (List α) :=
  match topoLocate n wraps s.origin g.dim with
  | none => if s.endX - s.origin 0 = 1 then some [g.edge] else none
  | some i =>
    if 0 ≤ i ∧ s.origin 0 ≤ s.endX ∧ i + (s.endX - s.origin 0) ≤ g.cells.length then
      some ((g.cells.drop i.toNat).take (s.endX - s.origin 0).toNat)
    else none

/-- `saveMemberUnchecked` (gridbase.h:235-242) of a `Grid` -/
def gridMembers (g : Grid α) : Source α := ⟨gridMemberStreak n wraps g, g.edge⟩

/-- `saveMemberImplementationGeneric` of a `DisplacedGrid` (displacedgrid.h:354-370, 43-100): the `NormalizingIterator` normalizes the displaced streak -/
def dispMembers (d : DGrid α) : Source α := ⟨fun s => gridMemberStreak n wraps d.delegate (normStreak n wraps true d.topo (relStreak d s)), d.delegate.edge⟩

/-- one iteration of the loop in `writeRegion` (bovwriter.h:147-171): the buffer holds all components of all cells, `length` items of `datatype` are written -/
def bovStreakOp (w : BOV B α) (name : String) (dims : Crd) (src : Source α) (s : Streak) : Option (WOp B) :=
  let index := toIndex n (topoNormalize n wraps s.origin dims) dims * w.sel.size * w.sel.arity
  if 0 ≤ index then
    (src.get s).map fun vec => ⟨name, index.toNat, (vec.flatMap w.sel.member).take ((s.endX - s.origin 0).toNat * w.sel.size)⟩
  else none

/-- `stepFinished` (bovwriter.h:60-76), without the text header: the data file -/
def bovStepFinished (w : BOV B α) (src : Source α) (region : Idx) (dims : Crd) (step : Nat) (event : Event) : Option (List (WOp B)) :=
  if event = .regular ∧ step % w.period ≠ 0 then some []
  else w.comm.bind fun _ => (toVector n region).bind fun ss => ss.mapM (bovStreakOp n wraps w (bovName w.pre step "data") dims src)

/-- `BOVOutput::writeGrid` (bovoutput.h:63-97): the new content of the file; rows of the bounding box of a `Grid` -/
def bovWriteGrid (sel : Sel B α) (g : Grid α) (fuel : Nat) : Option (List B) :=
  (boxStreaks n ⟨fun _ => 0, g.dim⟩ fuel).bind fun ss =>
    (ss.mapM fun s => (gridMemberStreak n wraps g s).map fun vec => vec.flatMap sel.member).map List.flatten

/-- `SerialBOVWriter::stepFinished` (serialbovwriter.h:53-65), without the text header: name and new content of the data file (which is truncated) -/
def bovSerialStepFinished (sel : Sel B α) (pre : String) (period : Nat) (g : Grid α) (step : Nat) (event : Event) (fuel : Nat) : Option (Option (String × List B)) :=
  if event = .regular ∧ step % period ≠ 0 then some none
  else (bovWriteGrid n wraps sel g fuel).map fun bytes => some (bovName pre step "data", bytes)

end LGD.IO
