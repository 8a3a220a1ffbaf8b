import Verif.Cuda.KernelModel

/-!
# CUDASimulator

parallelization/cudasimulator.h: two grids on the device, one on the host.
-/

namespace LGD.Cuda

variable {α : Type}

/-- events writers get -/
inductive WEvent where
  | initialized
  | finished
  | done
  deriving DecidableEq

/-- a steerer: its period, and what it does to the grid it gets (and whether it ends the simulation) -/
structure Steerer (α : Type) where
  period : Nat
  act : Nat → (Int → α) → (Int → α) × Bool

/-- everything `CUDASimulator` depends on: update of cells by nano step, neighbors they read, the host grid after the initialization (including padding; lines 504-513), writers' periods, whether the cells have SoA layout -/
structure Env (α : Type) where
  cfg : Cfg
  stencil : List P
  upd : Nat → List α → α
  nanoSteps : Nat
  init : Int → α
  start : Nat
  stop : Nat
  writers : List Nat
  steerers : List (Steerer α)
  soa : Bool

/-- `devGridOld`, `devGridNew`, `grid`, `hasCurrentGridOnHost`, `stepNum`; calls of writers: index, step, event, grid -/
structure St (α : Type) where
  old : Int → α
  new : Int → α
  host : Int → α
  fresh : Bool
  step : Nat
  log : List (Nat × Nat × WEvent × (Int → α))

/-- order in which the updates of each launch take place, by step and nano step -/
abbrev Sched := Nat → Nat → List Ev

/-- `nanoStep` and swap (lines 467-470, 560-594) -/
def nanoStep (E : Env α) (σ : Sched) (s : St α) (i : Nat) : Option (St α) :=
  if E.soa then some { s with old := s.new, new := s.old, fresh := false }
  else (execAll E.cfg E.stencil (E.upd i) s.old (σ s.step i) s.new).map fun n => { s with old := n, new := s.old, fresh := false }

/-- steerers (lines 452-465) get the grid on the host -/
def steer (E : Env α) (s : St α) (ended : Bool) : St α × Bool :=
  E.steerers.foldl (fun r t => if r.1.step % t.period = 0 then ({ r.1 with host := (t.act r.1.step r.1.host).1 }, r.2 || (t.act r.1.step r.1.host).2) else r) (s, ended)

/-- `getGrid` (lines 490-497) -/
def getGrid (s : St α) : St α := if s.fresh then s else { s with host := s.old, fresh := true }

/-- writers (lines 474-487) -/
def write (E : Env α) (s : St α) : St α :=
  let last := s.step = E.stop
  let ev := if last then WEvent.done else .finished
  E.writers.zipIdx.foldl (fun s w => if s.step % w.1 = 0 ∨ last then let s := getGrid s; { s with log := s.log ++ [(w.2, s.step, ev, s.host)] } else s) s

/-- `step` (lines 446-488) -/
def step (E : Env α) (σ : Sched) (s : St α) (ended : Bool) : Option (St α × Bool) := do
  let (s, ended) := steer E s ended
  let s ← (List.range E.nanoSteps).foldlM (nanoStep E σ) s
  return (write E { s with step := s.step + 1 }, ended)

/-- loop in `run` (lines 527-533) -/
def loop (E : Env α) (σ : Sched) : Nat → St α → Bool → Option (St α)
  | 0, s, _ => some s
  | n + 1, s, ended => if s.step < E.stop ∧ ended = false then do let (s, ended) ← step E σ s ended; loop E σ n s ended else some s

/-- `run` (lines 502-534) for a new simulator -/
def run (E : Env α) (σ : Sched) : Option (St α) :=
  let s : St α := ⟨E.init, E.init, E.init, true, E.start, E.writers.zipIdx.map fun w => (w.2, E.start, .initialized, E.init)⟩
  loop E σ (E.stop - E.start) s false

end LGD.Cuda
