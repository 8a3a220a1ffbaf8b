import Verif.Patch.PatchModel
import Verif.Step.AdapterModel

/-!
# `VanillaStepper`

Grids are functions from coordinates `κ` to cells `α` (see C33), regions are lists of coordinates. Steerers act cell by
cell: the new value of a cell depends on time step, event, coordinate and old value of that cell. Chronometers are left
out.
-/

namespace LGD.Step
open LGD.Patch LGD.Adapter

variable {κ α : Type} [DecidableEq κ]

/-- a user's `Steerer` (steerer.h:27-130): its period and what `nextStep` does to a cell of the given region -/
structure Steerer (κ α : Type) where
  period : Nat
  act : Nat → Event → κ → α → α

/-- What a stepper gets from its environment: ghost zone width, `NANO_STEPS`, start step and initial grid from the
initializer, the regions of the partition manager (partitionmanager.h:86-152), the cell's update function (nano step, old grid, coordinate)
and the effect of `notifyPatchProviders` for `GHOST_PHASE_0` (patch links) at a nano step. Each steerer is wrapped in one adapter for
`GHOST_PHASE_1` and one for `INNER_SET` (hiparsimulator.h:98-122, updategroup.h:243-254); `lastStep` is the initializer's
`maxSteps()`. -/
structure Env (κ α : Type) where
  W : Nat
  nanoSteps : Nat
  startStep : Nat
  initial : κ → α
  rim : Nat → List κ
  inner : Nat → List κ
  volatileKernel : List κ
  upd : Nat → (κ → α) → κ → α
  prov : Nat → (κ → α) → (κ → α)
  outerRim : List κ := []
  ownRegion : List κ := []
  steerers : List (Steerer κ α) := []
  lastStep : Nat := 0
  inf : Nat := 0

/-- What patch accepters are shown: the grid at some nano step, either for the rim (`GHOST_PHASE_0`) or for the kernel
(`INNER_SET`). -/
inductive Ev (κ α : Type) where
  | ghost (s : Nat) (g : κ → α)
  | inner (s : Nat) (g : κ → α)

/-- members of `CommonStepper` (commonstepper.h:103-109) and the steerer adapters for ghost zone and inner set; `log` is a history
variable -/
structure St (κ α : Type) where
  old : κ → α
  new : κ → α
  valid : Nat
  step : Nat
  nano : Nat
  rimB : PBF α
  kernelB : PBF α
  log : List (Ev κ α)
  sg : List (SAd (List κ))
  si : List (SAd (List κ))

variable (E : Env κ α)

/-- `globalNanoStep` (commonstepper.h:158-161) -/
def glob (st : St κ α) : Nat := st.step * E.nanoSteps + st.nano

/-- `UpdateFunctor` on a region: reads the old grid, writes the cells of the region in the new one (see C34 for the
line-wise implementation). -/
def updateRegion (r : List κ) (f : κ → α) (new : κ → α) : κ → α := fun c => if c ∈ r then f c else new c

/-- `Steerer::nextStep` on a region -/
def applyCall (f : Steerer κ α) (g : κ → α) (cl : Call (List κ)) : κ → α :=
  fun c => if c ∈ cl.arg then f.act cl.step cl.event c (g c) else g c

/-- `notifyPatchProviders` for the steerer adapters of one patch type (commonstepper.h:142-155); `none` is an exception. The
steerer's effect is that of the call which the adapter has forwarded, if any. -/
def steer (s : Nat) (r : List κ) : List (Steerer κ α) → List (SAd (List κ)) → (κ → α) → Option (List (SAd (List κ)) × (κ → α))
  | f :: fs, a :: as, g =>
    (a.notify E.nanoSteps E.inf (s, r)).bind fun a' =>
      (steer s r fs as ((a'.calls.drop a.calls.length).foldl (applyCall f) g)).map fun p => (a' :: p.1, p.2)
  | _, as, g => some (as, g)

/-- fresh adapters (hiparsimulator.h:102-119) -/
def adapters (lastCall : Bool) : List (SAd (List κ)) :=
  E.steerers.map fun f => SAd.make E.nanoSteps f.period E.startStep E.lastStep lastCall

/-- `++curNanoStep` with carry (vanillastepper.h:112-116, 197-201) -/
def incNano (st : St κ α) : St κ α :=
  if st.nano + 1 = E.nanoSteps then { st with nano := 0, step := st.step + 1 } else { st with nano := st.nano + 1 }

/-- an accepted `put` on one of the internal buffers; anything else would be lost or an exception -/
def putOK (r : PBF α × Out κ α) : Option (PBF α) :=
  match r with
  | (b, .accepted) => some b
  | _ => none

/-- a successful `get` -/
def getOK (r : PBF α × Out κ α) : Option (PBF α × (κ → α)) :=
  match r with
  | (b, .loaded g) => some (b, g)
  | _ => none

/-- `saveRim` (commonstepper.h:235-244) -/
def saveRim (st : St κ α) (s : Nat) : Option (St κ α) :=
  (putOK (PBF.put 2 (E.rim E.W) { st.rimB with req := setInsert s st.rimB.req } st.old s)).map fun b => { st with rimB := b }

/-- `restoreRim` (commonstepper.h:246-255) -/
def restoreRim (st : St κ α) (remove : Bool) : Option (St κ α) :=
  (getOK (PBF.get 2 (E.rim E.W) st.rimB st.old (glob E st) remove)).map fun p => { st with rimB := p.1, old := p.2 }

/-- `saveKernel` (commonstepper.h:257-266) -/
def saveKernel (st : St κ α) : Option (St κ α) :=
  (putOK (PBF.put 1 E.volatileKernel { st.kernelB with req := setInsert (glob E st) st.kernelB.req } st.old (glob E st))).map
    fun b => { st with kernelB := b }

/-- `restoreKernel` (commonstepper.h:268-277) -/
def restoreKernel (st : St κ α) : Option (St κ α) :=
  (getOK (PBF.get 1 E.volatileKernel st.kernelB st.old (glob E st) true)).map fun p => { st with kernelB := p.1, old := p.2 }

/-- body of the loop in `updateGhost` (vanillastepper.h:180-209); `g0` is the value of `curGlobalNanoStep` before the loop -/
def ghostIter (g0 : Nat) (st : St κ α) (t : Nat) : Option (St κ α) :=
  (steer E (glob E st) (E.rim t) E.steerers st.sg (E.prov (glob E st) st.old)).map fun p =>
    let new1 := updateRegion (E.rim (t + 1)) (E.upd st.nano p.2) st.new
    let st1 := incNano E { st with old := new1, new := p.2, sg := p.1 }
    { st1 with log := st.log ++ [.ghost (g0 + t + 1) new1] }

/-- the loop -/
def ghostLoop (g0 : Nat) (st : St κ α) : Nat → Option (St κ α)
  | 0 => some st
  | n + 1 => (ghostLoop g0 st n).bind fun st' => ghostIter E g0 st' n

/-- `updateGhost` (vanillastepper.h:157-225) -/
def updateGhost (st : St κ α) : Option (St κ α) :=
  (saveKernel E st).bind fun st1 =>
  (restoreRim E st1 false).bind fun st2 =>
  (ghostLoop E (glob E st2) st2 E.W).bind fun st3 =>
  (saveRim E st3 (glob E st2 + E.W)).bind fun st4 =>
  let st5 := if E.W % 2 = 1 then { st4 with old := st4.new, new := st4.old } else st4
  let st6 := { st5 with nano := st2.nano, step := st2.step }
  (restoreRim E st6 true).bind (restoreKernel E)

/-- `initGrids` (vanillastepper.h:131-146) with `initGridsCommon` (commonstepper.h:163-188); the buffers' initial content is
irrelevant -/
def initGrids (b1 b2 : Nat → List α) : Option (St κ α) :=
  let s0 := E.startStep * E.nanoSteps
  (steer E s0 E.outerRim E.steerers (adapters E false) (E.prov s0 E.initial)).bind fun p =>
  (steer E s0 E.ownRegion E.steerers (adapters E true) p.2).bind fun q =>
  let st : St κ α :=
    { old := q.2, new := E.initial, valid := E.W, step := E.startStep, nano := 0, rimB := { buffer := b1 }, kernelB := { buffer := b2 },
      log := [.ghost s0 q.2, .inner s0 q.2], sg := p.1, si := q.1 }
  (saveRim E st s0).bind (updateGhost E)

/-- the end of `update1`: notify the providers of the inner set (vanillastepper.h:126-128) -/
def steerInner (st : St κ α) : Option (St κ α) :=
  (steer E (glob E st) (E.inner (E.W - st.valid)) E.steerers st.si st.old).map fun p => { st with old := p.2, si := p.1 }

/-- `update1` (vanillastepper.h:93-129) -/
def update1 (st : St κ α) : Option (St κ α) :=
  let valid := st.valid - 1
  let new1 := updateRegion (E.inner (E.W - valid)) (E.upd st.nano st.old) st.new
  let st1 := incNano E { st with valid := valid, old := new1, new := st.old }
  let st2 := { st1 with log := st1.log ++ [.inner (glob E st1) st1.old] }
  (if st2.valid = 0 then (updateGhost E st2).map fun st3 => { st3 with valid := E.W } else some st2).bind (steerInner E)

/-- `update(nanoSteps)` after construction (commonstepper.h:78-83) -/
def run (b1 b2 : Nat → List α) : Nat → Option (St κ α)
  | 0 => initGrids E b1 b2
  | k + 1 => (run b1 b2 k).bind (update1 E)

end LGD.Step
