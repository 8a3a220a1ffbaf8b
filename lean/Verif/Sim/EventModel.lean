/-!
# Event handling of `HierarchicalSimulator` and `HiParSimulator`

Step numbers are unbounded (`unsigned` and `long` in the code). The update group is represented by its position in time: `update(n)`
advances it by `n` nano steps (C26). `balanceLoad` only logs when it was called (the weights it computes are not used,
hiparsimulator.h:240-252).
-/

namespace LGD.Sim

/-- `EventPoint` (eventpoint.h:4) -/
inductive EP where
  | loadBalancing
  | finish
  deriving DecidableEq

/-- outcome of a call: normal return, `std::logic_error`, undefined behavior (dereferencing iterators of an empty map), loop
not finished within the given number of iterations -/
inductive R (σ : Type) where
  | ok (s : σ)
  | staleEvent
  | undefined
  | outOfFuel
  deriving DecidableEq

/-- sequencing -/
def R.bind {σ τ : Type} : R σ → (σ → R τ) → R τ
  | .ok s, f => f s
  | .staleEvent, _ => .staleEvent
  | .undefined, _ => .undefined
  | .outOfFuel, _ => .outOfFuel

/-- parameters: `NANO_STEPS`, the initializer's `startStep()` and `maxSteps()`, load balancing period in nano steps
(`loadBalancingPeriod * NANO_STEPS`, hiparsimulator.h:67-70) -/
structure Cfg where
  nanoSteps : Nat
  startStep : Nat
  maxSteps : Nat
  lbPeriod : Nat

/-- `events` (hierarchicalsimulator.h:20; a `std::map`, so sorted by time), position of the update group, history of `balanceLoad`
calls -/
structure St where
  events : List (Nat × List EP)
  cur : Nat
  balanced : List Nat

variable (C : Cfg)

/-- `events[k] << e` -/
def evAdd (k : Nat) (e : EP) : List (Nat × List EP) → List (Nat × List EP)
  | [] => [(k, [e])]
  | (j, s) :: r => if k < j then (k, [e]) :: (j, s) :: r else if k = j then (j, if e ∈ s then s else s ++ [e]) :: r else (j, s) :: evAdd k e r

/-- `insertNextLoadBalancingEvent` (hierarchicalsimulator.h:62-70) -/
def insertNext (st : St) : St :=
  if st.cur + C.lbPeriod ≤ C.maxSteps * C.nanoSteps then { st with events := evAdd (st.cur + C.lbPeriod) .loadBalancing st.events } else st

/-- `initEvents` (hierarchicalsimulator.h:33-40) -/
def initEvents (st : St) : St := insertNext C { st with events := evAdd (C.maxSteps * C.nanoSteps) .finish [] }

/-- `handleEvents` (hierarchicalsimulator.h:42-60) -/
def handleEvents (st : St) : R St :=
  match st.events with
  | [] => .undefined
  | (t, s) :: _ =>
    if st.cur > t then .staleEvent
    else if st.cur < t then .ok st
    else
      let st' := s.foldl (fun st e => if e = .loadBalancing then insertNext C { st with balanced := st.balanced ++ [st.cur] } else st) st
      .ok { st' with events := st'.events.tail }

/-- `nanoStep` (hiparsimulator.h:167-176) with `timeToNextEvent` (hierarchicalsimulator.h:79-82); the first argument bounds the number of
iterations. An event in the past would make `hop` negative; this is not reached (C29). -/
def nanoStep : Nat → Nat → St → R St
  | 0, _, _ => .outOfFuel
  | f + 1, rem, st =>
    if rem = 0 then .ok st
    else
      match st.events with
      | [] => .undefined
      | (t, _) :: _ =>
        if t < st.cur then .staleEvent
        else (handleEvents C { st with cur := st.cur + min rem (t - st.cur) }).bind (nanoStep f (rem - min rem (t - st.cur)))

/-- state after the lazy `initSimulation` (hiparsimulator.h:188-232) -/
def start : St := initEvents C { events := [], cur := C.startStep * C.nanoSteps, balanced := [] }

/-- `step` (hiparsimulator.h:83-88) -/
def step (f : Nat) (st : St) : R St := nanoStep C f C.nanoSteps st

/-- `run` (hiparsimulator.h:76-81) with `timeToLastEvent` (hierarchicalsimulator.h:87-90) -/
def run (f : Nat) (st : St) : R St :=
  match st.events.getLast? with
  | none => .undefined
  | some (t, _) => nanoStep C f (t - st.cur) st

end LGD.Sim
