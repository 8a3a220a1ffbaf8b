import Verif.Step.AdapterModel

/-!
# `SerialSimulator`

Grids are functions from coordinates `κ` to cells `α` (see C33), including the edge cell, which is a coordinate outside of the simulation
area. Chronometers, `setRegion` and the remapping of unstructured grids (C39) are left out; step numbers are unbounded.
-/

namespace LGD.Serial
open LGD.Adapter

variable {κ α : Type} [DecidableEq κ]

/-- a `Steerer` (steerer.h:27-130): its period (0 would mean division by 0) and `nextStep`, which maps step, event and grid to the
modified grid and tells whether `endSimulation` was called -/
structure Steerer (κ α : Type) where
  period : Nat
  pos : 0 < period
  nextStep : Nat → Event → (κ → α) → (κ → α) × Bool

/-- initializer, cell class, steerers and the (positive) periods of the writers -/
structure Env (κ α : Type) where
  nanoSteps : Nat
  startStep : Nat
  maxSteps : Nat
  area : List κ
  initial : κ → α
  upd : Nat → (κ → α) → κ → α
  steerers : List (Steerer κ α)
  writers : List { p : Nat // 0 < p }

/-- a call of `Writer::stepFinished`: index of the writer, step, event, grid -/
structure WCall (κ α : Type) where
  writer : Nat
  step : Nat
  event : Event
  grid : κ → α

/-- a call of `Steerer::nextStep`: index of the steerer, step, event -/
structure SCall where
  steerer : Nat
  step : Nat
  event : Event
  deriving DecidableEq

/-- members of `SerialSimulator` (serialsimulator.h:127-130, simulator.h:102); `output` and `input` are history variables -/
structure St (κ α : Type) where
  cur : κ → α
  new : κ → α
  step : Nat
  output : List (WCall κ α)
  input : List SCall

variable (E : Env κ α)

/-- constructor (serialsimulator.h:48-59) -/
def make : St κ α where
  cur := E.initial
  new := E.initial
  step := E.startStep
  output := []
  input := []

/-- `nanoStep` (serialsimulator.h:132-139): the update functor writes the cells of the simulation area in the new grid (C34), then the
grids are swapped -/
def nanoStep (i : Nat) (st : St κ α) : St κ α :=
  { st with cur := fun c => if c ∈ E.area then E.upd i st.cur c else st.new c, new := st.cur }

/-- `handleOutput` (serialsimulator.h:144-157) -/
def handleOutput (event : Event) (st : St κ α) : St κ α :=
  { st with output := st.output ++ E.writers.zipIdx.filterMap fun p =>
      if event ≠ .regular ∨ st.step % p.1.1 = 0 then some ⟨p.2, st.step, event, st.cur⟩ else none }

/-- `handleInput` (serialsimulator.h:162-180); the boolean is `feedback->simulationEnd` -/
def handleInput (event : Event) (st : St κ α) (fb : Bool) : St κ α × Bool :=
  E.steerers.zipIdx.foldl (fun a p =>
    if event ≠ .regular ∨ a.1.step % p.1.period = 0 then
      let r := p.1.nextStep a.1.step event a.1.cur
      ({ a.1 with cur := r.1, input := a.1.input ++ [⟨p.2, a.1.step, event⟩] }, a.2 || r.2)
    else a) (st, fb)

/-- `step(feedback)` (serialsimulator.h:76-93) -/
def step (st : St κ α) (fb : Bool) : St κ α × Bool :=
  let a := handleInput E .regular st fb
  let st1 := (List.range E.nanoSteps).foldl (fun st i => nanoStep E i st) a.1
  let st2 := { st1 with step := st1.step + 1 }
  (handleOutput E (if st2.step = E.maxSteps then .allDone else .regular) st2, a.2)

/-- the loop in `run` (serialsimulator.h:108-114); `n` bounds the number of iterations -/
def loop : Nat → St κ α → Bool → St κ α × Bool
  | 0, st, fb => (st, fb)
  | n + 1, st, fb => if st.step < E.maxSteps then (if fb then (st, fb) else loop n (step E st fb).1 (step E st fb).2) else (st, fb)

/-- `run` (serialsimulator.h:98-117); every iteration increments the step number, so the loop has at most `maxSteps` iterations -/
def run (st : St κ α) : St κ α :=
  let st0 := { st with cur := E.initial, step := E.startStep }
  let a := handleInput E .initialized st0 false
  let st1 := handleOutput E .initialized a.1
  let b := loop E (E.maxSteps + 1) st1 a.2
  (handleInput E .allDone b.1 b.2).1

end LGD.Serial
