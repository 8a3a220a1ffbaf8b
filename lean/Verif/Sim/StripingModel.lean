import Verif.Sim.NetModel
import Verif.Step.AdapterModel
import Verif.Patch.PatchModel

/-!
# `StripingSimulator`

The simulator of one rank is cut into rounds at the points where it waits for messages (see NetModel): `step()` consists of
gathering the loads (round 0), distributing new partitions (1), sending (2) and receiving (3) cells for them, steering (4), and
the nano steps (5, 6, ...). Row numbers are unbounded. Regions are lists of coordinates in the order of iteration (C05). Grids are functions on
coordinates; what a grid contains outside of the region it was created for is arbitrary (`junk`). Measured loads are not modelled: the
balancer is an arbitrary function of step and workloads. Chronometers and remapping (C39) are left out.
-/

namespace LGD.Striping
open LGD.Adapter LGD.Patch

variable {κ α : Type} [DecidableEq κ]

/-- a `Steerer` which modifies cells independently of each other (`act` maps step, coordinate and cell) -/
structure Steerer (κ α : Type) where
  period : Nat
  pos : 0 < period
  act : Nat → κ → α → α

/-- initializer, topology, cell class, balancer, steerers and the periods of the writers -/
structure Env (κ α : Type) where
  N : Nat
  nanoSteps : Nat
  startStep : Nat
  maxSteps : Nat
  height : Nat
  lbPeriod : Nat
  /-- `fillRegion(startRow, endRow)` (stripingsimulator.h:432-437, boundingBox lines 359-370) -/
  rows : Nat → Nat → List κ
  /-- `fillRegion(startRow, endRow).expandWithTopology(1, …)` (C09, C10) -/
  expand : Nat → Nat → List κ
  initial : κ → α
  junk : κ → α
  upd : Nat → (κ → α) → κ → α
  balancer : Nat → List Nat → List Nat
  steerers : List (Steerer κ α)
  writers : List { p : Nat // 0 < p }

/-- kinds of messages: contribution to `MPI_Gather`, tags `BALANCELOADS` (new partitions and cells for them) and `GHOSTREGION`
(stripingsimulator.h:52-56) -/
inductive Tag where
  | ratio
  | balance
  | ghost
  deriving DecidableEq

/-- content of messages -/
inductive Msg (α : Type) where
  | ratio
  | vec (p : List Nat)
  | cells (l : List α)
  deriving DecidableEq

/-- a call of `ParallelWriter::stepFinished`: index of the writer, step, event, region, grid -/
structure WCall (κ α : Type) where
  writer : Nat
  step : Nat
  event : Event
  region : List κ
  grid : κ → α

/-- members of `StripingSimulator` (stripingsimulator.h:163-178). Regions and buffers are functions of `parts`. `pend` tells whether there are
pending requests with tag `GHOSTREGION`, `redist` and `oldParts` are the local state of `redistributeGrid`. -/
structure St (κ α : Type) where
  parts : List Nat
  cur : κ → α
  new : κ → α
  step : Nat
  pend : Bool
  redist : Bool
  oldParts : List Nat
  output : List (WCall κ α)

variable (E : Env κ α)

/-- `partition` (stripingsimulator.h:224-232) -/
def partition (gridHeight size : Nat) : List Nat := (List.range size).map (fun i => gridHeight * i / size) ++ [gridHeight]

/-- `partitionsToWorkloads` (stripingsimulator.h:509-516) -/
def partitionsToWorkloads (p : List Nat) : List Nat := (List.range (p.length - 1)).map fun i => p.getD (i + 1) 0 - p.getD i 0

/-- the loop in `workloadsToPartitions` -/
def sums : Nat → List Nat → List Nat
  | a, [] => [a]
  | a, x :: l => a :: sums (a + x) l

/-- `workloadsToPartitions` (stripingsimulator.h:518-526) -/
def workloadsToPartitions (w : List Nat) : List Nat := sums 0 w

/-- `validateLoads` (stripingsimulator.h:617-624) -/
def validateLoads (new old : List Nat) : Bool := ¬ (new.length ≠ old.length ∨ new.sum ≠ old.sum)

/-- `region` for a rank (stripingsimulator.h:447-449) -/
def region (p : List Nat) (i : Nat) : List κ := E.rows (p.getD i 0) (p.getD (i + 1) 0)

/-- `regionWithOuterGhosts` (stripingsimulator.h:450-457) -/
def withGhosts (p : List Nat) (i : Nat) : List κ := E.expand (p.getD i 0) (p.getD (i + 1) 0)

/-- intersection of regions (C03) -/
def inter (a b : List κ) : List κ := a.filter (· ∈ b)

/-- `outerGhostRegions` (stripingsimulator.h:475, 478-480); no entry if empty -/
def outerGhost (p : List Nat) (i j : Nat) : List κ := if i = j then [] else inter (withGhosts E p i) (region E p j)

/-- `innerGhostRegions` (stripingsimulator.h:476, 481-484); no entry if empty -/
def innerGhost (p : List Nat) (i j : Nat) : List κ := if i = j then [] else inter (region E p i) (withGhosts E p j)

/-- `innerGhostRegion` (stripingsimulator.h:483) -/
def innerGhosts (p : List Nat) (i : Nat) : List κ := (region E p i).filter fun c => ∃ j ∈ List.range E.N, c ∈ innerGhost E p i j

/-- `innerRegion` (stripingsimulator.h:488) -/
def innerRegion (p : List Nat) (i : Nat) : List κ := (region E p i).filter (· ∉ innerGhosts E p i)

/-- a new grid, filled by the initializer -/
def freshGrid (p : List Nat) (i : Nat) : κ → α := fun c => if c ∈ withGhosts E p i then E.initial c else E.junk c

/-- `handleOutput` (stripingsimulator.h:337-352) -/
def handleOutput (i : Nat) (event : Event) (st : St κ α) : St κ α :=
  { st with output := st.output ++ E.writers.zipIdx.filterMap fun p =>
      if event ≠ .regular ∨ st.step % p.1.1 = 0 then some ⟨p.2, st.step, event, region E st.parts i, st.cur⟩ else none }

/-- `initSimulation` (stripingsimulator.h:495-507) -/
def initSimulation (i : Nat) (st : St κ α) : St κ α :=
  { st with cur := freshGrid E st.parts i, new := freshGrid E st.parts i, step := E.startStep }

/-- constructor (stripingsimulator.h:58-75) -/
def make (i : Nat) : St κ α :=
  initSimulation E i
    { parts := partition E.height E.N
      cur := E.junk
      new := E.junk
      step := 0
      pend := false
      redist := false
      oldParts := []
      output := [] }

/-- beginning of `run` (stripingsimulator.h:128-132) -/
def beginRun (i : Nat) (st : St κ α) : St κ α := handleOutput E i .initialized (initSimulation E i st)

/-- the messages for which `waitForGhostRegions` waits (stripingsimulator.h:288-302); the requests were issued by `recvOuterGhostRegion`
(lines 392-407) -/
def ghostWaits (i : Nat) (st : St κ α) : List (Tag × Nat) :=
  if st.pend then ((List.range E.N).filter fun j => outerGhost E st.parts i j ≠ []).map fun j => (.ghost, j) else []

/-- content of a received message -/
def cells : Option (Msg α) → List α
  | some (.cells l) => l
  | _ => []

/-- `waitForGhostRegions` (stripingsimulator.h:288-302) -/
def waitForGhosts (i : Nat) (r : Tag → Nat → Option (Msg α)) (st : St κ α) : St κ α :=
  if st.pend then
    { st with
      cur := (List.range E.N).foldl (fun g j => if outerGhost E st.parts i j = [] then g else loadRegion (outerGhost E st.parts i j) (cells (r .ghost j)) g) st.cur
      pend := false }
  else st

/-- `sendInnerGhostRegion` (stripingsimulator.h:409-424) -/
def sendGhosts (i : Nat) (p : List Nat) (g : κ → α) : List (Tag × Nat × Msg α) :=
  ((List.range E.N).filter fun j => innerGhost E p i j ≠ []).map fun j => (.ghost, j, .cells (saveRegion (innerGhost E p i j) g))

/-- the rows rank `j` has to send to rank `i` in `redistributeGrid` (stripingsimulator.h:549-553, 577-581) -/
def pieceStart (old new : List Nat) (j i : Nat) : Nat := max (old.getD j 0) (new.getD i 0)

/-- see `pieceStart` -/
def pieceEnd (old new : List Nat) (j i : Nat) : Nat := min (old.getD (j + 1) 0) (new.getD (i + 1) 0)

/-- a step in which the load is balanced (stripingsimulator.h:239-241) -/
def balancing (st : St κ α) : Bool := st.step % E.lbPeriod = 0

/-- new partitions as computed by rank 0 (stripingsimulator.h:251-254); `none` is `std::invalid_argument` -/
def newPartitions (st : St κ α) : Option (List Nat) :=
  let old := partitionsToWorkloads st.parts
  let new := E.balancer st.step old
  if validateLoads new old then some (workloadsToPartitions new) else none

/-- first part of `redistributeGrid`, up to sending (stripingsimulator.h:531-595) -/
def redistribute1 (i : Nat) (r : Tag → Nat → Option (Msg α)) (new : List Nat) (st : St κ α) : St κ α × List (Tag × Nat × Msg α) :=
  let st := waitForGhosts E i r st
  if new = st.parts then (st, [])
  else
    ({ st with parts := new, oldParts := st.parts, redist := true, new := freshGrid E new i },
     ((List.range (new.length - 1)).filter fun d => pieceEnd st.parts new i d > pieceStart st.parts new i d).map fun d =>
       (.balance, d, .cells (saveRegion (E.rows (pieceStart st.parts new i d) (pieceEnd st.parts new i d)) st.cur)))

/-- sources of cells in `redistributeGrid` (stripingsimulator.h:548-568) -/
def pieceSources (i : Nat) (st : St κ α) : List Nat :=
  (List.range (st.parts.length - 1)).filter fun j => pieceEnd st.oldParts st.parts j i > pieceStart st.oldParts st.parts j i

/-- second part of `redistributeGrid` (stripingsimulator.h:597-611) -/
def redistribute2 (i : Nat) (r : Tag → Nat → Option (Msg α)) (st : St κ α) : St κ α × List (Tag × Nat × Msg α) :=
  let g := (pieceSources i st).foldl
    (fun g j => loadRegion (E.rows (pieceStart st.oldParts st.parts j i) (pieceEnd st.oldParts st.parts j i)) (cells (r .balance j)) g) st.new
  ({ st with cur := g, new := freshGrid E st.parts i, redist := false, pend := true }, sendGhosts E i st.parts g)

/-- `handleInput` (stripingsimulator.h:315-335) after waiting -/
def handleInput (i : Nat) (st : St κ α) : St κ α :=
  { st with cur := E.steerers.foldl (fun g f =>
      if st.step % f.period = 0 then fun c => if c ∈ withGhosts E st.parts i then f.act st.step c (g c) else g c else g) st.cur }

/-- `updateRegion` (stripingsimulator.h:372-381) -/
def updateRegion (l : List κ) (nano : Nat) (st : St κ α) : St κ α :=
  { st with new := fun c => if c ∈ l then E.upd nano st.cur c else st.new c }

/-- `nanoStep` (stripingsimulator.h:269-286) after waiting -/
def nanoStep (i nano : Nat) (st : St κ α) : St κ α × List (Tag × Nat × Msg α) :=
  let st1 := updateRegion E (innerGhosts E st.parts i) nano st
  let out := sendGhosts E i st.parts st1.new
  let st2 := updateRegion E (innerRegion E st.parts i) nano st1
  ({ st2 with cur := st2.new, new := st2.cur, pend := true }, out)

/-- end of `step` (stripingsimulator.h:116-122) -/
def endStep (i : Nat) (st : St κ α) : St κ α :=
  let st1 := { st with step := st.step + 1 }
  handleOutput E i (if st1.step = E.maxSteps then .allDone else .regular) st1

/-- number of rounds per step -/
def K : Nat := E.nanoSteps + 5

/-- what a rank waits for in a round -/
def waits (r i : Nat) (st : St κ α) : List (Tag × Nat) :=
  match r % K E with
  | 0 => []
  | 1 => if balancing E st ∧ i = 0 then (List.range E.N).map fun j => (.ratio, j) else []
  | 2 => if balancing E st then (.balance, 0) :: ghostWaits E i st else []
  | 3 => if st.redist then (pieceSources i st).map fun j => (.balance, j) else []
  | _ => ghostWaits E i st

/-- `step` (stripingsimulator.h:106-123) with `balanceLoad` (lines 237-267) in rounds -/
def act (r i : Nat) (st : St κ α) (m : Tag → Nat → Option (Msg α)) : Option (St κ α × List (Tag × Nat × Msg α)) :=
  match r % K E with
  | 0 => some (st, if balancing E st then [(.ratio, 0, .ratio)] else [])
  | 1 =>
    if balancing E st ∧ i = 0 then (newPartitions E st).map fun p => (st, (List.range E.N).map fun d => (.balance, d, .vec p))
    else some (st, [])
  | 2 =>
    if balancing E st then
      match m .balance 0 with
      | some (.vec p) => some (redistribute1 E i m p st)
      | _ => none
    else some (st, [])
  | 3 => some (if st.redist then redistribute2 E i m st else (st, []))
  | 4 => some (handleInput E i (waitForGhosts E i m st), [])
  | k + 5 =>
    let a := nanoStep E i k (waitForGhosts E i m st)
    some (if k + 1 = E.nanoSteps then (endStep E i a.1, a.2) else a)

/-- `steps` calls of `step()` on all ranks; in `run` there are `maxSteps - startStep` of them (stripingsimulator.h:134-136) -/
def prog (steps : Nat) : Net.Prog (St κ α) (Msg α) Tag where
  N := E.N
  total := steps * K E
  waits := waits E
  act := act E

end LGD.Striping
