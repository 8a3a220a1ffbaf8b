import Verif.Geom.TopoModel

/-!
# `TestCell`, `TestInitializer` and the assertions on grids of test cells

Coordinates are integers, the cycle counter is an `unsigned` of 32 bits. `n + 1` is the number of dimensions, `stencil` are the relative coordinates of the stencil, `N` is `NANO_STEPS`. Left out: `testValue`, which
`update` only copies, and the output of error messages; code for the host (not CUDA).
-/

namespace LGD.TC

/-- members (testcell.h:152-157) -/
structure Cell where
  pos : Crd
  dims : Crd
  counter : Nat
  isEdge : Bool
  valid : Bool

/-- `pos + relativeLoc` -/
def shift (c d : Crd) : Crd := fun k => c k + d k

/-- relative coordinate of the cell itself -/
def here : Crd := fun _ => 0

/-- constructor with arguments (testcell.h:171-183) -/
def make (n : Nat) (wraps : Nat → Bool) (pos dims : Crd) (counter : Nat) : Cell := ⟨pos, dims, counter, outOfBounds n wraps pos dims, true⟩

/-- default constructor (testcell.h:164-169) -/
def dfltCell : Cell := ⟨here, here, 0, false, false⟩

/-- `checkNeighbor` (testcell.h:297-372) -/
def checkNeighbor (n : Nat) (wraps : Nat → Bool) (c other : Cell) (d : Crd) : Bool :=
  if !other.valid then false else
    let out := outOfBounds n wraps (shift c.pos d) c.dims
    if other.isEdge ≠ out then false
    else if !out then
      if other.counter ≠ c.counter then false
      else if !crdEq n other.dims c.dims then false
      else crdEq n other.pos (topoNormalize n wraps (shift c.pos d) c.dims)
    else true

/-- `update` (testcell.h:216-257) -/
def update (n : Nat) (wraps : Nat → Bool) (stencil : List Crd) (N : Nat) (hood : Crd → Cell) (nano : Nat) : Cell :=
  let c := hood here
  if c.isEdge then { c with valid := false } else
    let v := c.valid && stencil.all fun d => checkNeighbor n wraps c (hood d) d
    if N ≤ nano then { c with valid := false }
    else if nano ≠ c.counter % N then { c with valid := false }
    else { c with valid := v, counter := (c.counter + 1) % 2 ^ 32 }

/-- the cell which `TestInitializer::grid` stores at `c` (testinitializer.h:30-39) -/
def initCell (n : Nat) (wraps : Nat → Bool) (dims : Crd) (N start : Nat) (c : Crd) : Cell := make n wraps (topoNormalize n wraps c dims) dims (start * N % 2 ^ 32)

/-- the edge cell of `TestInitializer::grid` (testinitializer.h:41-43) -/
def edgeCell (n : Nat) (wraps : Nat → Bool) (dims : Crd) : Cell := { make n wraps (fun _ => -1) dims 0 with isEdge := true }

/-- what `TS_ASSERT_TEST_GRID` and `TS_ASSERT_TEST_GRID_REGION` check for each cell (testhelper.h:116-136, 156-176) -/
def assertCell (cycle : Nat) (c : Cell) : Bool := c.valid && !c.isEdge && decide (c.counter = cycle)

/-- what they check for the edge cell (testhelper.h:106-114, 153-154) -/
def assertEdge (c : Cell) : Bool := c.isEdge && c.valid

end LGD.TC
