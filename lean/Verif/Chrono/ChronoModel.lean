import Mathlib.Algebra.Order.Ring.Rat
import Mathlib.Algebra.BigOperators.Group.List.Basic
import Mathlib.Tactic.Ring
import Mathlib.Tactic.Linarith

/-!
# `Chronometer` and its timers

`misc/chronometer.h`, and the places at which simulators and steppers create timers. Points in time are rational numbers (the code uses `double`, so that sums are rounded).
Everything between two readings of the clock is a `work` item: it takes some time and may throw. Both are given by a sequence `δ`, which stands for an arbitrary execution.
-/

namespace LGD.Chrono

/-- class hierarchy of the `…Implementation` classes generated by `DEFINE_EVENT` (chronometer.h:99-121): `basic` is `BasicTimerImplementation` -/
inductive Event where
  | basic
  | derived (id : Nat) (parent : Event)
deriving DecidableEq

/-! The events (chronometer.h:142-150) -/
def timeTotal : Event := .derived 0 .basic
def timeCompute : Event := .derived 1 .basic
def timeComputeInner : Event := .derived 2 timeCompute
def timeComputeGhost : Event := .derived 3 timeCompute
def timePatchAccepters : Event := .derived 4 .basic
def timePatchProviders : Event := .derived 5 .basic
def timeCommunication : Event := .derived 6 .basic
def timeInput : Event := .derived 7 .basic
def timeOutput : Event := .derived 8 .basic

/-- names (chronometer.h:91-94, 142-150): `EventUtil<ID>()()` -/
def eventName (id : Nat) : String :=
  match id with
  | 0 => "total_time" | 1 => "compute_time" | 2 => "compute_time_inner" | 3 => "compute_time_ghost" | 4 => "patch_accepters_time" | 5 => "patch_providers_time"
  | 6 => "communication_time" | 7 => "input_time" | 8 => "output_time" | _ => "unknown event"

/-- `EVENT_COUNTER` (chronometer.h:68, 89): specialized for the nine events, otherwise the one of the predecessor -/
def eventCounter : Nat → Nat
  | 0 => 1
  | id + 1 => if id + 1 ≤ 8 then id + 1 + 1 else eventCounter id

/-- `NUM_INTERVALS`, i.e. `EventUtil<100>::NUM_EVENTS` (chronometer.h:74, 226) -/
def numIntervals : Nat := eventCounter 99

/-- `EventToString` (chronometer.h:158-208): `none` if it throws -/
def eventToString (id : Nat) : Option String := if id < 20 then some (eventName id) else none

/-- `totalTimes` -/
abbrev Totals := Nat → ℚ

/-- the destructors of the implementation classes, from the most derived to the base class (chronometer.h:117-120) -/
def destroy : Event → ℚ → Totals → Totals
  | .basic, _, c => c
  | .derived id p, t, c => destroy p t fun i => if i = id then c i + t else c i

/-- `addTime` (chronometer.h:40-45, 313-317): a temporary is created and destroyed -/
def addTime (e : Event) (t : ℚ) (c : Totals) : Totals := destroy e t c

/-- `operator+=`, `operator+` (chronometer.h:248-262) -/
def plus (a b : Totals) : Totals := fun i => if i < numIntervals then a i + b i else a i

/-- `reset` (chronometer.h:267-270) -/
def reset (c : Totals) : Totals := fun i => if i < numIntervals then 0 else c i

/-- `ratio` (chronometer.h:296-306) -/
def ratio (i j : Nat) (c : Totals) : ℚ := if c j = 0 then 1 / 2 else c i / c j

/-- `report` (chronometer.h:325-335): the lines; `none` if it throws -/
def report (c : Totals) : Option (List (String × ℚ)) := (List.range numIntervals).mapM fun i => (eventToString i).map fun s => (s, c i)

/-! ## Programs with timers -/

/-- statements as far as time is concerned -/
inductive Prog where
  | skip
  | work
  | seq (a b : Prog)
  | scope (e : Event) (body : Prog)

/-- `for` loop -/
def rep : Nat → Prog → Prog
  | 0, _ => .skip
  | k + 1, p => .seq p (rep k p)

/-- time, number of work items so far, totals -/
structure St where
  now : ℚ
  tick : Nat
  tot : Totals

variable (δ : Nat → ℚ × Bool)

/-- execution; the flag tells whether an exception is on its way. A timer stores the time upon construction (chronometer.h:33-38); upon destruction – also during stack unwinding – it determines
the elapsed time (chronometer.h:135-138), before the destructors of its bases add that (chronometer.h:117-120). -/
def exec : Prog → St → St × Bool
  | .skip, s => (s, false)
  | .work, s => (⟨s.now + (δ s.tick).1, s.tick + 1, s.tot⟩, (δ s.tick).2)
  | .seq a b, s => if (exec a s).2 then exec a s else exec b (exec a s).1
  | .scope e body, s =>
    let r := exec body s
    (⟨r.1.now, r.1.tick, destroy e (r.1.now - s.now) r.1.tot⟩, r.2)

/-! ## Simulators -/

/-- `SerialSimulator::handleInput`, `handleOutput`, `nanoStep` (serialsimulator.h:132-140, 144-157, 162-178) -/
def serialInput : Prog := .scope timeInput .work
def serialOutput : Prog := .scope timeOutput .work
def serialNanoStep : Prog := .scope timeCompute .work

/-- `SerialSimulator::step` (serialsimulator.h:76-93) -/
def serialStep (nanoSteps : Nat) : Prog :=
  .scope timeTotal (.seq .work (.seq serialInput (.seq (rep nanoSteps (.seq .work serialNanoStep)) (.seq .work (.seq serialOutput .work)))))

/-- `SerialSimulator::run` (serialsimulator.h:98-116) -/
def serialRun (nanoSteps steps : Nat) : Prog :=
  .seq .work (.seq serialInput (.seq serialOutput (.seq (rep steps (.seq .work (serialStep nanoSteps))) serialInput)))

/-- `StripingSimulator::nanoStep` (stripingsimulator.h:269-286; 288-304, 386-432) -/
def stripingNanoStep : Prog :=
  .scope timeTotal (.seq .work (.seq (.scope timeCommunication .work) (.seq (.scope timeCommunication .work) (.seq (.scope timeComputeGhost .work)
    (.seq (.scope timeCommunication .work) (.seq (.scope timeComputeInner .work) .work))))))

/-- `StripingSimulator::step` without `balanceLoad` (stripingsimulator.h:106-125) -/
def stripingStep (nanoSteps : Nat) : Prog := .seq .work (.seq (rep nanoSteps stripingNanoStep) .work)

/-- the part of `balanceLoad` which uses the chronometer (stripingsimulator.h:237-247): the load which is reported to the balancer -/
def stripingBalance (period step : Nat) (c : Totals) : Option ℚ × Totals :=
  if step % period ≠ 0 then (none, c) else (some (ratio 1 0 c), reset c)

/-- `StripingSimulator::run` (stripingsimulator.h:130-139): all loads reported until an exception or `steps` more steps -/
def stripingRun (nanoSteps period : Nat) : Nat → Nat → St → List ℚ
  | 0, _, _ => []
  | k + 1, step, s =>
    let b := stripingBalance period step s.tot
    let r := exec δ (stripingStep nanoSteps) { s with tot := b.2 }
    b.1.toList ++ if r.2 then [] else stripingRun nanoSteps period k (step + 1) r.1

/-- `CommonStepper::notifyPatchAccepters`, `notifyPatchProviders` (commonstepper.h:113-158) -/
def notifyAccepters : Prog := .scope timePatchAccepters .work
def notifyProviders : Prog := .scope timePatchProviders .work

/-- `VanillaStepper::updateGhost` (vanillastepper.h:157-226) -/
def updateGhost (width : Nat) : Prog :=
  .seq (.scope timeComputeGhost .work) (.seq .work (.seq
    (rep width (.seq notifyProviders (.seq notifyProviders (.seq (.scope timeComputeGhost .work) notifyAccepters))))
    (.scope timeComputeGhost .work)))

/-- `VanillaStepper::initGrids`, called by the constructor (vanillastepper.h:89, 131-146) -/
def vanillaInit (width : Nat) : Prog := .seq .work (.seq notifyAccepters (.seq notifyAccepters (.seq .work (updateGhost width))))

/-- `VanillaStepper::update1` (vanillastepper.h:93-129); `ghost` tells whether the ghost zones have been used up -/
def vanillaUpdate (width : Nat) (ghost : Bool) : Prog :=
  .scope timeTotal (.seq .work (.seq (.scope timeComputeInner .work) (.seq notifyAccepters (.seq (if ghost then updateGhost width else .skip) (.seq .work notifyProviders)))))

/-- `update` (commonstepper.h:78-83): some calls of `update1` -/
def vanillaUpdates (width : Nat) : List Bool → Prog
  | [] => .skip
  | g :: gs => .seq (vanillaUpdate width g) (.seq .work (vanillaUpdates width gs))

/-- `CUDAStepper::update1` (cudastepper.h:336-375, 516-580) -/
def cudaUpdate (width : Nat) (ghost : Bool) : Prog :=
  .seq .work (.seq (.scope timeComputeInner .work) (.seq notifyAccepters (.seq (if ghost then updateGhost width else .skip) notifyProviders)))

end LGD.Chrono
